import Mathlib.Analysis.Calculus.FDeriv.Basic
import Mathlib.Analysis.Calculus.Deriv.Basic
import Mathlib.Topology.Algebra.Module.ContinuousLinearMap.PiProd

/-! # Gradients and Jacobians of functions of a value vector -/

namespace Lop.Spec

/-- `g` is the gradient of `f` at `F` (Fréchet derivative, not only partial derivatives). -/
def IsGradientAt {n : Nat} (f : (Fin n → ℝ) → ℝ) (g : Fin n → ℝ) (F : Fin n → ℝ) : Prop :=
  HasFDerivAt f (∑ i, g i • (ContinuousLinearMap.proj i : (Fin n → ℝ) →L[ℝ] ℝ)) F

/-- `J` is the Jacobian of `f` at `F`: row `i` is the gradient of the `i`-th component. -/
def IsJacobianAt {n m : Nat} (f : (Fin n → ℝ) → Fin m → ℝ) (J : Fin m → Fin n → ℝ) (F : Fin n → ℝ) :
    Prop :=
  ∀ i, IsGradientAt (fun F => f F i) (J i) F

/-- `H` is the Hessian of `f` at `F`: `f` is differentiable around `F` and `H` is the Jacobian of its
gradient. -/
def IsHessianAt {n : Nat} (f : (Fin n → ℝ) → ℝ) (H : Fin n → Fin n → ℝ) (F : Fin n → ℝ) : Prop :=
  ∃ G : (Fin n → ℝ) → Fin n → ℝ, (∀ᶠ F' in nhds F, IsGradientAt f (G F') F') ∧ IsJacobianAt G H F

end Lop.Spec
