import Verif.Spec.PrefProbit
import Verif.Spec.AbsProbit
import Mathlib.LinearAlgebra.Matrix.NonsingularInverse

/-! # Specification vocabulary for the Laplace approximation -/

namespace Lop.Spec

open Matrix

/-- A matrix inversion routine: right on invertible matrices (`np.linalg.inv` and `np.linalg.pinv`), anything
(or an exception, `none`) on singular ones. -/
def InvertsInvertible {n : Nat} (invert : Matrix (Fin n) (Fin n) ℝ → Option (Matrix (Fin n) (Fin n) ℝ)) : Prop :=
  ∀ M, IsUnit M.det → invert M = some M⁻¹

/-- Density of the centred normal distribution with covariance `K`. -/
noncomputable def normalDensity {n : Nat} (K : Matrix (Fin n) (Fin n) ℝ) (F : Fin n → ℝ) : ℝ :=
  Real.exp (-(F ⬝ᵥ (K⁻¹ *ᵥ F)) / 2) / Real.sqrt ((2 * Real.pi) ^ n * K.det)

/-- Logarithm of prior density times likelihood. -/
noncomputable def logPosterior {n : Nat} (K : Matrix (Fin n) (Fin n) ℝ) (loglik : (Fin n → ℝ) → ℝ)
    (F : Fin n → ℝ) : ℝ :=
  loglik F + Real.log (normalDensity K F)

/-- Log-likelihood of optional pair labels and optional ratings. -/
noncomputable def pairRatingLogLik {n : Nat} (sigma sa v : ℝ) (pairs : Option (List (IPair n)))
    (ratings : Option (List (ℝ × Fin n))) (F : Fin n → ℝ) : ℝ :=
  pairLogLik sigma (pairs.getD []) F + betaLogLik sa v (ratings.getD []) F

/-- Pair labels and ratings to which the derivative formulas apply: nothing clipped, ratings in (0,1), every
point rated at most once. -/
def LabelsInRange {n : Nat} (sigma sa eps : ℝ) (pairs : Option (List (IPair n)))
    (ratings : Option (List (ℝ × Fin n))) (F : Fin n → ℝ) : Prop :=
  PairsInRange sigma (pairs.getD []) F ∧ RatingsInRange sa eps (ratings.getD []) F ∧
    (∀ p ∈ ratings.getD [], 0 < p.1 ∧ p.1 < 1) ∧ ((ratings.getD []).map (·.2)).Nodup

/-- The pair labels do not determine the weights of a linear utility: some non-zero weights are indifferent
between the two points of every strict comparison. -/
def Undetermined {n d : Nat} (X : Matrix (Fin n) (Fin d) ℝ) (y : List (IPair n)) : Prop :=
  ∃ w : Fin d → ℝ, w ≠ 0 ∧ ∀ p ∈ y, p.dk ≠ 0 → (X *ᵥ w) p.u = (X *ᵥ w) p.v

end Lop.Spec
