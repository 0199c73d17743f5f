import Verif.Model.Basic

/-! # Specification vocabulary for preference pairs -/

namespace Lop.Spec

/-- The item a stored pair says is preferred: `-1` means the first one. -/
def winner (p : Pair) : Nat := if p.dk = -1 then p.u else p.v

/-- The item a stored pair says is not preferred. -/
def loser (p : Pair) : Nat := if p.dk = -1 then p.v else p.u

/-- `a` is directly recorded as better than `b`. -/
def Beats (ps : List Pair) (a b : Nat) : Prop := ∃ p ∈ ps, winner p = a ∧ loser p = b

/-- Number of pairs that relate the items `a` and `b` (in either order). -/
def timesRelated (ps : List Pair) (a b : Nat) : Nat :=
  ps.countP fun p => (p.u = a ∧ p.v = b) ∨ (p.u = b ∧ p.v = a)

end Lop.Spec
