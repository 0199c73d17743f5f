import Mathlib.Analysis.SpecialFunctions.Log.Basic
import Mathlib.Data.Real.Sqrt
import Mathlib.Algebra.BigOperators.Fin

/-! # Specification vocabulary for the alignment functions -/

namespace Lop.Spec

/-- A distance up to identification of points: non-negative, zero on the diagonal, symmetric, triangle. -/
structure IsPseudometric {ι : Type} (D : ι → ι → ℝ) : Prop where
  nonneg : ∀ i k, 0 ≤ D i k
  self : ∀ i, D i i = 0
  symm : ∀ i k, D i k = D k i
  triangle : ∀ i k l, D i l ≤ D i k + D k l

/-- `x` and `y` rank the points in the same weak order. -/
def SameOrder {ι : Type} (x y : ι → ℝ) : Prop := ∀ j k, x j < x k ↔ y j < y k

/-- `x` and `y` rank the points in opposite weak orders. -/
def OppositeOrder {ι : Type} (x y : ι → ℝ) : Prop := ∀ j k, x j < x k ↔ y k < y j

/-- The row distinguishes at least two points. -/
def NonConstant {ι : Type} (x : ι → ℝ) : Prop := ∃ j k, x j ≠ x k

/-- `p` is the softmax distribution of `x`: positive, total one, log ratios equal to differences. -/
structure IsSoftmax {d : ℕ} (x p : Fin d → ℝ) : Prop where
  pos : ∀ j, 0 < p j
  total : ∑ j, p j = 1
  ratio : ∀ j k, Real.log (p j) - Real.log (p k) = x j - x k

/-- `r` is the Pearson correlation of `x` and `y`, in the form without means: from all pairwise
differences. -/
def IsPearson {d : ℕ} (x y : Fin d → ℝ) (r : ℝ) : Prop :=
  r * (√(∑ j, ∑ k, (x j - x k) ^ 2) * √(∑ j, ∑ k, (y j - y k) ^ 2)) =
    ∑ j, ∑ k, (x j - x k) * (y j - y k)

/-- Average rank: every smaller value counts one, every tied value (itself included) one half, plus one
half. -/
noncomputable def avgRank {d : ℕ} (x : Fin d → ℝ) (j : Fin d) : ℝ :=
  1 / 2 + ∑ k, if x k < x j then 1 else if x k = x j then 1 / 2 else 0

/-- Probability of choosing position `q` out of `s` alternatives when `P q j` is the probability that `q`
beats `j`: proportional to the product of the wins against all others. -/
noncomputable def choiceProb {s : ℕ} (P : Fin s → Fin s → ℝ) (q : Fin s) : ℝ :=
  (∏ j ∈ Finset.univ.erase q, P q j) / ∑ q', ∏ j ∈ Finset.univ.erase q', P q' j

/-- `b` is the first position of a largest value. -/
def FirstMax {s : ℕ} (v : Fin s → ℝ) (b : Fin s) : Prop := (∀ j, v j ≤ v b) ∧ ∀ j, j < b → v j < v b

end Lop.Spec
