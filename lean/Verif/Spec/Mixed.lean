import Verif.Model.Mixed
import Mathlib.Order.Monotone.Basic
import Mathlib.Topology.Order.Basic

/-! # Specification vocabulary for the mixed learners -/

namespace Lop.Spec

open Lop

variable {α : Type*}

/-- Both sub-learners returned in this call. -/
def returnedSel : MixOp α → Bool
  | .select ⟨.ok _, .ok _⟩ => true
  | _ => false

/-- The call is a `set_model`. -/
def isSetModel : MixOp α → Bool
  | .setModel => true
  | _ => false

/-- Number of selections made since the model was last set (or since construction). -/
def selectionsMade (ops : List (MixOp α)) : Nat :=
  ((ops.reverse.takeWhile fun o => !isSetModel o).filter returnedSel).length

/-- The call numbers at which `MixedDecision` compares the two query types. -/
def mdDecides (n : Nat) : Prop := n = 5 ∨ n = 10 ∨ n = 15

/-- A number that can be used as a probability. -/
def IsProb (p : ℝ) : Prop := 0 ≤ p ∧ p ≤ 1

end Lop.Spec
