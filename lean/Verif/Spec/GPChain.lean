import Verif.Spec.GPActive
import Mathlib.Analysis.SpecialFunctions.Gaussian.GaussianIntegral
import Mathlib.LinearAlgebra.Matrix.NonsingularInverse

/-! # Spec: the density of Gaussian data -/

namespace Lop.Spec

open Matrix

/-- The density at `y` of a Gaussian vector with mean zero and covariance matrix `D`. -/
noncomputable def jointDensity {T : Nat} (D : Matrix (Fin T) (Fin T) ℝ) (y : Fin T → ℝ) : ℝ :=
  (Real.sqrt ((2 * Real.pi) ^ T * D.det))⁻¹ * Real.exp (-(y ⬝ᵥ D⁻¹ *ᵥ y) / 2)

end Lop.Spec
