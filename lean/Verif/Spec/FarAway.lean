import Verif.Spec.Laplace
import Verif.Spec.Cov
import Verif.Model.GP

/-! # Specification vocabulary for predictions far away from the data -/

namespace Lop.Spec

open Lop

variable {d : Nat}

/-- Kernels built from leaves other than the linear one. -/
def BoundedKernel : KExpr ℝ (Pt d) → Prop
  | .leaf (.linear ..) => False
  | .leaf _ => True
  | .dual _ a b => BoundedKernel a ∧ BoundedKernel b

/-- Kernels that vanish at large distances: RBF kernels, zeroed or not, their sums, and their products with bounded kernels. -/
def Decaying : KExpr ℝ (Pt d) → Prop
  | .leaf (.rbf _ l _) => l ≠ 0
  | .leaf (.zeroed _ l _ _) => l ≠ 0
  | .leaf _ => False
  | .dual .add a b => Decaying a ∧ Decaying b
  | .dual .mul a b => Decaying a ∧ BoundedKernel b ∨ BoundedKernel a ∧ Decaying b

/-- Squared distance from the origin at least `R`, for all points of an array. -/
def FarOut {n : Nat} (R : ℝ) (X : Fin n → Pt d) : Prop := ∀ i, R ≤ ∑ c, X i c ^ 2

/-- A prediction is within `eps` of the prior with mean `mean` and covariance matrix `A`. -/
def NearPrior {n : Nat} (eps : ℝ) (mean : Fin n → ℝ) (A : Matrix (Fin n) (Fin n) ℝ) (p : GPPred n) : Prop :=
  ∀ i, |p.mu i - mean i| ≤ eps ∧ |p.sigma i - max 0 (A i i)| ≤ eps ∧ ∀ j, |p.cov i j - A i j| ≤ eps

end Lop.Spec
