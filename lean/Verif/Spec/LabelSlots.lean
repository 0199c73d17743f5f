import Verif.Model.LabelSlots
import Verif.Spec.Data

/-! # Specification vocabulary: which probit scores which labels -/

namespace Lop.Spec

variable {d : Nat} {α : Type*} [LinearOrder α] {R : Type*} [Field R] [LinearOrder R]

/-- The documented label types and the probit meant for each. -/
def ownProbit : List (String × ProbitKind) :=
  [("relative_discrete", .pairwise), ("ordinal", .ordinal), ("abs", .rating)]

/-- The probit that scores the labels of type `t` in a model built with the extra keys `other`. -/
def scoringProbit (other : List String) (t : String) : Option ProbitKind :=
  (dictGet (probitIdxs other) t).bind (modelProbits[·]?)

/-- Every label type is scored by its own probit. -/
def WellRouted (other : List String) : Prop :=
  ∀ e ∈ ownProbit, scoringProbit other e.1 = some e.2

/-- A user's operations on the labels. -/
inductive SlotOp (d : Nat) (α R : Type*)
  | add (X : List (Fin d → α)) (inp : AddInput R)
  | reset

/-- The operation on the code's containers. -/
def slotExec (pareto : Bool) (st : SlotState d α R) : SlotOp d α R → SlotState d α R × Option PyErr
  | .add X inp => slotAdd pareto st X inp
  | .reset => (slotReset st, none)

/-- The operation on the containers with one field per type. -/
def fieldExec (pareto : Bool) (st : ModelState d α R) : SlotOp d α R → ModelState d α R × Option PyErr
  | .add X inp => modelAdd pareto st X inp
  | .reset => (modelReset st, none)

/-- What the labels of the three types are worth: each under its own probit. -/
def typedLogLik (ll : ProbitKind → Slot R → R) (y : Labels R) : R :=
  (match y.rel with | some l => ll .pairwise (.pairs l) | none => 0) +
  (match y.ord with | some l => ll .ordinal (.vals (l.map fun r => (.inl r.1, r.2))) | none => 0) +
  (match y.abs with | some l => ll .rating (.vals (l.map fun r => (.inr r.1, r.2))) | none => 0)

end Lop.Spec
