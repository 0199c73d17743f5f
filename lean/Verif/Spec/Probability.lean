import Mathlib.Probability.Distributions.Gaussian.Multivariate

/-! # Specification: the probability of being the best -/

namespace Lop.Spec

open MeasureTheory ProbabilityTheory

/-- The probability that no coordinate of a Gaussian vector with mean `mu` and covariance `K` exceeds the `i`-th. -/
noncomputable def bestProbability {N : Nat} (K : Matrix (Fin N) (Fin N) ℝ) (mu : Fin N → ℝ) (i : Fin N) : ℝ :=
  (multivariateGaussian (WithLp.toLp 2 mu) K).real {x | ∀ j, x j ≤ x i}

/-- `mvcdf` is the distribution function of Gaussian vectors with positive definite covariance. -/
def ExactCdf {n : Nat} (mvcdf : (Fin n → ℝ) → Matrix (Fin n) (Fin n) ℝ → (Fin n → ℝ) → ℝ) : Prop :=
  ∀ m S x, S.PosDef → mvcdf m S x = (multivariateGaussian (WithLp.toLp 2 m) S).real {y | ∀ j, y j ≤ x j}

end Lop.Spec
