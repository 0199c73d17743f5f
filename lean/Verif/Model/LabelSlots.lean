import Verif.Model.Data

/-! # Model of the label containers of `PreferenceModel` as the code keeps them
(`src/lop/models/PreferenceModel.py:44-61,187-308`): one list `y_train` whose positions are looked up by
type name in the dictionary `probit_idxs`, which the constructor argument `other_probits` extends.

`Verif.Model.Data` models a model built without `other_probits`, with one field per label type. -/

namespace Lop

variable {d : Nat} {α : Type*} [LinearOrder α] {R : Type*} [Field R] [LinearOrder R]

/-- The three probit classes in `self.probits` (`PreferenceModel.py:49`). -/
inductive ProbitKind
  | pairwise | ordinal | rating
  deriving DecidableEq

/-- `self.probits` (`PreferenceModel.py:49`); the probits passed as `other_probits` do not enter. -/
def modelProbits : List ProbitKind := [.pairwise, .ordinal, .rating]

/-- `m[k] = v` on an insertion-ordered dictionary. -/
def dictSet (m : List (String × Nat)) (k : String) (v : Nat) : List (String × Nat) :=
  if m.any (fun e => e.1 = k) then m.map (fun e => if e.1 = k then (k, v) else e) else m ++ [(k, v)]

/-- `m[k]`, `none` for a missing key. -/
def dictGet (m : List (String × Nat)) (k : String) : Option Nat :=
  (m.find? fun e => e.1 = k).map (·.2)

/-- The initial dictionary (`PreferenceModel.py:50`). -/
def defaultIdxs : List (String × Nat) := [("relative_discrete", 0), ("ordinal", 1), ("abs", 2)]

/-- `self.probit_idxs` (`PreferenceModel.py:50-55`) for the keys of `other_probits` in their order:
numbering starts at 1. -/
def probitIdxs (other : List String) : List (String × Nat) :=
  (other.zipIdx 1).foldl (fun m e => dictSet m e.1 e.2) defaultIdxs

/-- The content of one position of `y_train`: an (n,3) array of pairs, or a tuple (values, indices)
whose values are integers (ordinals) or numbers (ratings). -/
inductive Slot (R : Type*)
  | pairs (y : List Pair)
  | vals (y : List ((Int ⊕ R) × Nat))

/-- The data fields of a model with its dictionary. -/
structure SlotState (d : Nat) (α R : Type*) where
  idxs : List (String × Nat)
  X : Option (List (Fin d → α))
  slots : List (Option (Slot R))
  optimized : Bool

/-- The constructor (`PreferenceModel.py:44-58`): one position per key. -/
def SlotState.init (other : List String) : SlotState d α R :=
  { idxs := probitIdxs other, X := none,
    slots := List.replicate (probitIdxs other).length none, optimized := false }

/-- Position `i` of `y_train` after appending pairs (`PreferenceModel.py:205-209,264-271`). Appending
pairs to a tuple of ratings is outside this model. -/
def appendPairs (slots : List (Option (Slot R))) (i : Nat) (ps : List Pair) :
    Except PyErr (List (Option (Slot R))) :=
  match slots[i]? with
  | none => .error .indexError
  | some none => .ok (slots.set i (some (.pairs ps)))
  | some (some (.pairs old)) => .ok (slots.set i (some (.pairs (old ++ ps))))
  | some (some (.vals _)) => .error .outsideModel

/-- Position `i` of `y_train` after appending ratings (`PreferenceModel.py:223-231,248-252`).
Appending ratings to pairs is outside this model. -/
def appendVals (slots : List (Option (Slot R))) (i : Nat) (vs : List ((Int ⊕ R) × Nat)) :
    Except PyErr (List (Option (Slot R))) :=
  match slots[i]? with
  | none => .error .indexError
  | some none => .ok (slots.set i (some (.vals vs)))
  | some (some (.vals old)) => .ok (slots.set i (some (.vals (old ++ vs))))
  | some (some (.pairs _)) => .error .outsideModel

/-- Looking the type up and appending pairs. -/
def storePairs (idxs : List (String × Nat)) (slots : List (Option (Slot R))) (ps : List Pair) :
    Except PyErr (List (Option (Slot R))) :=
  match dictGet idxs "relative_discrete" with
  | none => .error .keyError
  | some i => appendPairs slots i ps

/-- Looking the type `t` up and appending ratings. -/
def storeVals (idxs : List (String × Nat)) (slots : List (Option (Slot R))) (t : String)
    (vs : List ((Int ⊕ R) × Nat)) : Except PyErr (List (Option (Slot R))) :=
  match dictGet idxs t with
  | none => .error .keyError
  | some i => appendVals slots i vs

/-- Storing ordinal ratings (`PreferenceModel.py:220-231`). -/
def slotOrd (idxs : List (String × Nat)) (slots : List (Option (Slot R))) (new : List (Int × Nat)) :
    Except PyErr (List (Option (Slot R))) :=
  if new.any (fun r => r.1 ≤ 0) then .error .exception
  else storeVals idxs slots "ordinal" (new.map fun r => (.inl r.1, r.2))

/-- Storing absolute ratings (`PreferenceModel.py:243-252`). -/
def slotAbs (idxs : List (String × Nat)) (slots : List (Option (Slot R))) (new : List (R × Nat)) :
    Except PyErr (List (Option (Slot R))) :=
  if new.any (fun r => r.1 < 0) ∨ new.any (fun r => r.1 > 1) then .error .valueError
  else storeVals idxs slots "abs" (new.map fun r => (.inr (clampRating r.1), r.2))

/-- The label part of `add` (`PreferenceModel.py:198-252`); `.ok none` is the early `return` of line
241. A type other than the three has no branch: its labels are dropped. -/
def slotLabels (idxs : List (String × Nat)) (slots : List (Option (Slot R))) (lenX : Nat) :
    AddInput R → Except PyErr (Option (List (Option (Slot R))))
  | .pairs ps =>
    let ps := if lenX > 0 then ps.map (fun p => ⟨p.dk, p.u + lenX, p.v + lenX⟩) else ps
    if ps.isEmpty then .ok (some slots) else (storePairs idxs slots ps).map some
  | .ordinalVec v => (slotOrd idxs slots (v.zipIdx.map fun (a, i) => (a, i + lenX))).map some
  | .ordinalMat m => (slotOrd idxs slots m).map some
  | .absVec v => (slotAbs idxs slots (v.zipIdx.map fun (a, i) => (a, i + lenX))).map some
  | .absTuple v => (slotAbs idxs slots v).map some
  | .absOther => .ok none
  | .otherType => .ok (some slots)

/-- The automatic pairs (`PreferenceModel.py:254-275`). -/
def slotPareto (pareto : Bool) (idxs : List (String × Nat)) (slots : List (Option (Slot R)))
    (lenX : Nat) (X all : List (Fin d → α)) : Except PyErr (List (Option (Slot R))) :=
  if pareto ∧ all.length > 1 then
    let pairs := paretoPairs lenX X all
    if pairs.isEmpty then .ok slots else storePairs idxs slots pairs
  else .ok slots

/-- `add` (`PreferenceModel.py:187-279`). -/
def slotAdd (pareto : Bool) (st : SlotState d α R) (X : List (Fin d → α)) (inp : AddInput R) :
    SlotState d α R × Option PyErr :=
  let old := st.X.getD []
  let all := old ++ X
  let st := { st with X := some all }
  match slotLabels st.idxs st.slots old.length inp with
  | .error e => (st, some e)
  | .ok none => (st, none)
  | .ok (some slots) =>
    match slotPareto pareto st.idxs slots old.length X all with
    | .error e => ({ st with slots := slots }, some e)
    | .ok slots => ({ st with slots := slots, optimized := false }, none)

/-- `reset` (`PreferenceModel.py:166-169`). -/
def slotReset (st : SlotState d α R) : SlotState d α R :=
  { st with X := none, slots := List.replicate st.idxs.length none }

/-- `log_likelyhood_training` (`PreferenceModel.py:286-302`): probit `j` scores position `j`; `ll k s`
stands for the log-likelihood the probit of kind `k` gives the labels `s`. There are at least as many
positions as probits. -/
def slotLogLik (ll : ProbitKind → Slot R → R) (st : SlotState d α R) : R :=
  (modelProbits.zipIdx.map fun e => match (st.slots[e.2]?).join with
    | some s => ll e.1 s
    | none => 0).sum

end Lop
