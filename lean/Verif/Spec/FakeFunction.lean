import Mathlib.Data.Real.Basic
import Mathlib.Algebra.BigOperators.Fin

/-! # Specification vocabulary for utility functions -/

namespace Lop.Spec

/-- `f` never decreases when no objective decreases, on the set `S`. -/
def MonotoneOn' {d : Nat} (S : Set (Fin d → ℝ)) (f : (Fin d → ℝ) → ℝ) : Prop :=
  ∀ a ∈ S, ∀ b ∈ S, (∀ k, a k ≤ b k) → f a ≤ f b

/-- `y` is a convex combination of the entries of `x`. -/
def ConvexComb {d : Nat} (x : Fin d → ℝ) (y : ℝ) : Prop :=
  ∃ c : Fin d → ℝ, (∀ k, 0 ≤ c k) ∧ ∑ k, c k = 1 ∧ y = ∑ k, c k * x k

end Lop.Spec
