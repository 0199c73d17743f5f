import Mathlib.Probability.Distributions.Gaussian.Real
import Mathlib.MeasureTheory.Constructions.Pi

/-! # Orthant probability of independent normal variables -/

namespace Lop.Spec

open MeasureTheory ProbabilityTheory

/-- Probability that independent normal variables with means `mu` and variances `v` are all at most 0. -/
noncomputable def orthantProb {n : Nat} (mu : Fin n → ℝ) (v : Fin n → NNReal) : ℝ :=
  (Measure.pi fun i => gaussianReal (mu i) (v i)).real {x | ∀ i, x i ≤ 0}

/-- The matrix that maps the joint values to the differences of the candidates `others` with
candidate `i`. -/
def diffMat {N : Nat} (others : List (Fin N)) (i : Fin N) : Matrix (Fin N) (Fin others.length) ℝ :=
  fun a j => (if a = others[j] then 1 else 0) - if a = i then 1 else 0

end Lop.Spec
