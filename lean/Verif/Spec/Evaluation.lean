import Mathlib.Data.Real.Basic
import Mathlib.Data.Fintype.Card

/-! # Specification vocabulary for the evaluation of a model -/

namespace Lop.Spec

/-- `σ` is a result of sorting: it lists every position once, in ascending order of `v`. -/
structure IsArgsort {k : ℕ} (v : Fin k → ℝ) (σ : Fin k → Fin k) : Prop where
  inj : Function.Injective σ
  sorted : ∀ i j, i ≤ j → v (σ i) ≤ v (σ j)

/-- Number of candidates strictly better than `b`. -/
noncomputable def numBetter {k : ℕ} (v : Fin k → ℝ) (b : Fin k) : ℕ :=
  (Finset.univ.filter fun j => v b < v j).card

/-- Number of candidates at least as good as `b`, `b` included. -/
noncomputable def numAtLeast {k : ℕ} (v : Fin k → ℝ) (b : Fin k) : ℕ :=
  (Finset.univ.filter fun j => v b ≤ v j).card

end Lop.Spec
