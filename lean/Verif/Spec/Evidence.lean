import Verif.Spec.Laplace
import Mathlib.Analysis.Calculus.Deriv.Basic
import Mathlib.MeasureTheory.Integral.Bochner.Basic
import Mathlib.MeasureTheory.Measure.Haar.OfBasis

/-! # Specification vocabulary for the hyper-parameter likelihood -/

namespace Lop.Spec

open Matrix

/-- Entrywise derivative of a matrix-valued function of one variable. -/
def MatDeriv {m l : Type*} (M : ℝ → Matrix m l ℝ) (M' : Matrix m l ℝ) (t : ℝ) : Prop :=
  ∀ i j, HasDerivAt (fun s => M s i j) (M' i j) t

/-- Likelihood whose logarithm is the quadratic with value `ll`, gradient `g` and Hessian `-W` at `F`. -/
noncomputable def quadLik {n : Nat} (F : Fin n → ℝ) (ll : ℝ) (g : Fin n → ℝ) (W : Matrix (Fin n) (Fin n) ℝ)
    (f : Fin n → ℝ) : ℝ :=
  Real.exp (ll + g ⬝ᵥ (f - F) - 1 / 2 * ((f - F) ⬝ᵥ (W *ᵥ (f - F))))

/-- Marginal likelihood under the prior `N(0, K)`. -/
noncomputable def marginalLik {n : Nat} (K : Matrix (Fin n) (Fin n) ℝ) (lik : (Fin n → ℝ) → ℝ) : ℝ :=
  ∫ f : Fin n → ℝ, lik f * normalDensity K f

/-- `g` is the derivative at `t` of a computation that succeeds with a finite number near `t`. -/
def DerivOfResult {ε : Type*} (f : ℝ → Except ε (Option ℝ)) (g t : ℝ) : Prop :=
  ∃ V : ℝ → ℝ, (∀ᶠ s in nhds t, f s = .ok (some (V s))) ∧ HasDerivAt V g t

end Lop.Spec
