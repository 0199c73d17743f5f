import Mathlib.Data.Real.Basic
import Mathlib.Data.Fintype.BigOperators

/-! # Specification vocabulary for the expected alignment of a rating query -/

namespace Lop.Spec

open Finset

variable {M : Nat}

/-- Alignment of two independent draws from the distribution `p` on the samples. -/
noncomputable def meanAlign (f : Fin M → Fin M → ℝ) (p : Fin M → ℝ) : ℝ := ∑ i, ∑ j, p i * p j * f i j

/-- Bayes: weights of the samples after an observation of likelihood `p w` under sample `w`. -/
noncomputable def bayes (p : Fin M → ℝ) (w : Fin M) : ℝ := p w / ∑ k, p k

/-- Conditionally positive semidefinite alignment: symmetric and the quadratic form is non-negative on
weights of total zero. -/
def CondPSD (f : Fin M → Fin M → ℝ) : Prop :=
  (∀ i j, f i j = f j i) ∧ ∀ c : Fin M → ℝ, ∑ i, c i = 0 → 0 ≤ ∑ i, ∑ j, c i * c j * f i j

end Lop.Spec
