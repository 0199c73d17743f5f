import Verif.Spec.Normal
import Mathlib.Probability.Distributions.Beta

/-! # Specification of the absolute-rating (beta) model -/

namespace Lop.Spec

open ProbabilityTheory

variable {m : Nat}

/-- Expected rating for the latent value `f`. -/
noncomputable def ratingMean (sigma f : ℝ) : ℝ := Phi (f / (Real.sqrt 2 * sigma))

/-- Log-likelihood of a list of (rating, index) labels: beta densities with mean `ratingMean` and
precision `v`. -/
noncomputable def betaLogLik (sigma v : ℝ) (y : List (ℝ × Fin m)) (F : Fin m → ℝ) : ℝ :=
  (y.map fun p => Real.log (betaPDFReal (v * ratingMean sigma (F p.2))
    (v * (1 - ratingMean sigma (F p.2))) p.1)).sum

/-- No clipping is active: the standardised latent values are strictly between -30 and 100 and the mean
ratings strictly between `eps` and `1 - eps`. -/
def RatingsInRange (sigma eps : ℝ) (y : List (ℝ × Fin m)) (F : Fin m → ℝ) : Prop :=
  ∀ p ∈ y, -30 < F p.2 / (Real.sqrt 2 * sigma) ∧ F p.2 / (Real.sqrt 2 * sigma) < 100 ∧
    eps < ratingMean sigma (F p.2) ∧ ratingMean sigma (F p.2) < 1 - eps

end Lop.Spec
