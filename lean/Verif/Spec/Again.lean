import Verif.Spec.ModeLearned

/-! # Specification vocabulary: repeated comparisons of the same two points -/

namespace Lop.Spec

variable {n : Nat}

/-- A definite answer to a comparison of `u` and `v`, asked either way round. -/
def AboutPair (u v : Fin n) (p : IPair n) : Prop :=
  (p.dk = 1 ∨ p.dk = -1) ∧ (p.u = u ∧ p.v = v ∨ p.u = v ∧ p.v = u)

/-- Variance of the difference of two values with covariance matrix `C`. -/
def diffVar (C : Matrix (Fin n) (Fin n) ℝ) (i j : Fin n) : ℝ := C i i + C j j - C i j - C j i

end Lop.Spec
