import Verif.Spec.Again

/-! # Specification vocabulary: how often an answer was given -/

namespace Lop.Spec

variable {n : Nat}

/-- The answer names `v` as the better point. -/
def Favours (v : Fin n) (p : IPair n) : Prop := p.dk = 1 ∧ p.v = v ∨ p.dk = -1 ∧ p.u = v

instance (v : Fin n) (p : IPair n) : Decidable (Favours v p) := by unfold Favours; infer_instance

/-- The share of the answers that name `v` as the better point. -/
noncomputable def share (v : Fin n) (y : List (IPair n)) : ℝ := (y.countP fun p => Favours v p) / y.length

end Lop.Spec
