import Verif.Model.Alias
import Verif.Spec.Data

/-! # Specification vocabulary: a caller and a model sharing a memory -/

namespace Lop.Spec

variable {d : Nat} {α : Type*} [LinearOrder α] {R : Type*} [Field R] [LinearOrder R]

/-- What can happen: the caller creates and changes arrays of its own and calls methods. -/
inductive AliasOp (d : Nat) (α R : Type*)
  | new (c : Cell d α)
  | write (a : Nat) (c : Cell d α)
  | add (a : Nat) (inp : AliasInput R)
  | reset
  | predict

/-- One step. -/
def aliasExec (st : AliasState d α R) : AliasOp d α R → AliasState d α R
  | .new c => aliasNew st c
  | .write a c => aliasWrite st a c
  | .add a inp => (aliasAdd st a inp).1
  | .reset => aliasReset st
  | .predict => aliasPredict st

/-- A whole history from the start. -/
def aliasRun (ops : List (AliasOp d α R)) : AliasState d α R := ops.foldl aliasExec {}

/-- The caller's own arrays of points: address `a` was created by the caller and holds points. -/
def CallerPoints (st : AliasState d α R) (a : Nat) : Prop := ∃ l, st.mem[a]? = some (true, .points l)

/-- Label formats that pass no array by reference: lists of pairs, vectors of ratings. -/
def ByValue : AliasOp d α R → Prop
  | .add _ (.ordinalMat _) => False
  | .add _ (.absTuple _ _) => False
  | _ => True

/-- Steps that leave the model's points alone. -/
def NoData : AliasOp d α R → Prop
  | .add _ _ => False
  | .reset => False
  | _ => True

/-- Not a `reset`. -/
def NotReset : AliasOp d α R → Prop
  | .reset => False
  | _ => True

/-- The labels of a call with the content the arrays have now; `none` if an address holds no array of the right kind, or
ratings and indices differ in number. -/
def valueInput (m : Mem d α) : AliasInput R → Option (AddInput R)
  | .pairs y => some (.pairs y)
  | .ordinalVec y => some (.ordinalVec y)
  | .ordinalMat a => (ordsAt m a).map .ordinalMat
  | .absVec v => some (.absVec v)
  | .absTuple v a => (idxsAt m a).bind fun l => if l.length = v.length then some (.absTuple (v.zip l)) else none

/-- The call with the content the arrays have now: no call (`[]`), one call, or no call of the modelled kind (`none`).
Writes are excluded. -/
def valueOp (m : Mem d α) : AliasOp d α R → Option (List (Op d α R))
  | .new _ => some []
  | .write _ _ => none
  | .add a inp => match pointsAt m a, valueInput m inp with
    | some X, some i => some [.add X i]
    | _, _ => none
  | .reset => some [.reset]
  | .predict => some [.predict]

/-- All calls of a history with the content of the arrays at the time of the call. -/
def valueOps : AliasState d α R → List (AliasOp d α R) → Option (List (Op d α R))
  | _, [] => some []
  | st, o :: os => match valueOp st.mem o, valueOps (aliasExec st o) os with
    | some l, some ls => some (l ++ ls)
    | _, _ => none

/-- Labels read through a view. -/
def viewLabels (v : View d α R) : Labels R := ⟨v.rel, v.ord, v.abs.map fun e => e.1.zip e.2⟩

end Lop.Spec
