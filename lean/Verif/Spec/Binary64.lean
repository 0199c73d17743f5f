import Mathlib.Analysis.SpecialFunctions.Pow.Real

/-! # Specification: the numbers of IEEE 754 binary64 -/

namespace Lop.Spec

/-- The finite binary64 numbers: a significand of at most 53 bits times a power of two from `2 ^ -1074` on, at most `(2 ^ 53 - 1) 2 ^ 971`. -/
def IsBinary64 (y : ℝ) : Prop :=
  ∃ k j : ℤ, |k| ≤ 2 ^ 53 ∧ -1074 ≤ j ∧ y = k * 2 ^ j ∧ |y| ≤ (2 ^ 53 - 1) * 2 ^ 971

end Lop.Spec
