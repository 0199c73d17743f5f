import Verif.Model.Training
import Verif.Model.Pairs
import Mathlib.Data.Fintype.Basic
import Mathlib.Data.Fin.Basic

/-! # Model of the training-data bookkeeping of `src/lop/models/PreferenceModel.py`
(with the lazy fitting of `PreferenceGP.predict` / `PreferenceLinear.predict`). -/

namespace Lop

variable {d : Nat} {α : Type*} [LinearOrder α] {R : Type*} [Field R] [LinearOrder R]

/-- The data fields of a `PreferenceModel` (`PreferenceModel.py:44-61`): `X_train`, `y_train`,
`prior_idx`, `optimized`.  `fitted` records the training data from which the stored mode (`self.F`,
`self.K`, `self.W`, resp. `self.w`) was computed last. -/
structure ModelState (d : Nat) (α R : Type*) where
  X : Option (List (Fin d → α)) := none
  y : Labels R := {}
  prior : Option (Nat × Int) := none
  optimized : Bool := false
  fitted : Option (List (Fin d → α) × Labels R) := none

/-- The argument `(y, type)` of `PreferenceModel.add` (`PreferenceModel.py:187`), split by how the
code treats it.  A tuple `(v, idxs)` of parallel arrays is a list of pairs. -/
inductive AddInput (R : Type*)
  /-- `type='relative_discrete'`, a list of `(dk,u,v)` -/
  | pairs (y : List Pair)
  /-- `type='ordinal'`, one integer per new point -/
  | ordinalVec (y : List Int)
  /-- `type='ordinal'`, an (n,2) array of (value, index) -/
  | ordinalMat (y : List (Int × Nat))
  /-- `type='abs'`, an ndarray with one rating per new point -/
  | absVec (v : List R)
  /-- `type='abs'`, a tuple (values, indices) -/
  | absTuple (v : List (R × Nat))
  /-- `type='abs'`, anything else, e.g. a Python list -/
  | absOther
  /-- any other `type` string -/
  | otherType

/-- Appending to a label container that may still be `None` (`PreferenceModel.py:205-209,223-231,
248-252,264-271`). -/
def appendOpt {β : Type*} (old : Option (List β)) (new : List β) : Option (List β) :=
  some (old.getD [] ++ new)

/-- Clamping of absolute ratings (`PreferenceModel.py:245-246`). -/
def clampRating (v : R) : R :=
  let v := if v < 1 / 1000 then 1 / 1000 else v
  if v > 999 / 1000 then 999 / 1000 else v

/-- Storing absolute ratings (`PreferenceModel.py:243-252`). -/
def addAbs (y : Labels R) (new : List (R × Nat)) : Except PyErr (Option (Labels R)) :=
  if new.any (fun r => r.1 < 0) ∨ new.any (fun r => r.1 > 1) then .error .valueError
  else .ok (some { y with abs := appendOpt y.abs (new.map fun r => (clampRating r.1, r.2)) })

/-- Storing ordinal ratings (`PreferenceModel.py:220-231`). -/
def addOrd (y : Labels R) (new : List (Int × Nat)) : Except PyErr (Option (Labels R)) :=
  if new.any (fun r => r.1 ≤ 0) then .error .exception
  else .ok (some { y with ord := appendOpt y.ord new })

/-- The label part of `add` (`PreferenceModel.py:198-252`), where `lenX` is the number of training
points before the call.  `.ok none` is the early `return` of line 241. Note the asymmetries: matrix
ordinals and tuple ratings keep the indices they come with. -/
def addLabels (y : Labels R) (lenX : Nat) : AddInput R → Except PyErr (Option (Labels R))
  | .pairs ps =>
    let ps := if lenX > 0 then ps.map (fun p => ⟨p.dk, p.u + lenX, p.v + lenX⟩) else ps
    if ps.isEmpty then .ok (some y) else .ok (some { y with rel := appendOpt y.rel ps })
  | .ordinalVec v => addOrd y (v.zipIdx.map fun (a, i) => (a, i + lenX))
  | .ordinalMat m => addOrd y m
  | .absVec v => addAbs y (v.zipIdx.map fun (a, i) => (a, i + lenX))
  | .absTuple v => addAbs y v
  | .absOther => .ok none
  | .otherType => .ok (some y)

/-- `np.all(x > X_train[j])` (`PreferenceModel.py:259`). -/
def strictlyAbove (x z : Fin d → α) : Bool := decide (∀ k, x k > z k)

/-- The automatic pairs (`PreferenceModel.py:255-262`). -/
def paretoPairs (lenX : Nat) (newX all : List (Fin d → α)) : List Pair :=
  newX.zipIdx.flatMap fun (x, i) =>
    (all.zipIdx.filter fun (z, _) => strictlyAbove x z).map fun (_, j) =>
      ⟨getDkScalar (1 : Int) 0, i + lenX, j⟩

/-- `PreferenceModel.add(X, y, type)` (`PreferenceModel.py:187-279`); returns the new state and the
exception raised, if any (the state is mutated before the exception).  `training_sigma` is unused by
the code. -/
def modelAdd (pareto : Bool) (st : ModelState d α R) (X : List (Fin d → α)) (inp : AddInput R) :
    ModelState d α R × Option PyErr :=
  let old := st.X.getD []
  let lenX := old.length
  let all := old ++ X
  let st := { st with X := some all }
  match addLabels st.y lenX inp with
  | .error e => (st, some e)
  | .ok none => (st, none)
  | .ok (some y) =>
    let y := if pareto ∧ all.length > 1 then
        let pairs := paretoPairs lenX X all
        if pairs.isEmpty then y else { y with rel := appendOpt y.rel pairs }
      else y
    ({ st with y := y, optimized := false }, none)

/-- `PreferenceModel.reset` (`PreferenceModel.py:166-169`): `optimized` is not touched. -/
def modelReset (st : ModelState d α R) : ModelState d α R :=
  { st with X := none, y := {}, prior := none }

/-- Is point `i` mentioned by a pair (`counts[i] != 0`, `PreferenceModel.py:114-122`)? -/
def referenced (ps : List Pair) (i : Nat) : Bool := ps.any fun p => p.u = i ∨ p.v = i

/-- The running count of removed points up to and including `i` (`PreferenceModel.py:126-133`). -/
def removedUpTo (ps : List Pair) (i : Nat) : Nat :=
  ((List.range (i + 1)).filter fun j => !referenced ps j).length

/-- `remove_without_reference()` (`PreferenceModel.py:113-150`), with `remove_prior=True`.  Only the
pair labels are counted and re-indexed, as in the code.  Errors: no training points
(`AttributeError`), no pairs (`TypeError`, iterating `None`), pair index out of range (`IndexError`),
no prior window (`TypeError`, after the data has been changed). -/
def removeUnreferenced (st : ModelState d α R) : ModelState d α R × Option PyErr :=
  match st.X with
  | none => (st, some .attributeError)
  | some X =>
    match st.y.rel with
    | none => (st, some .typeError)
    | some ps =>
      if ps.any (fun p => p.u ≥ X.length ∨ p.v ≥ X.length) then (st, some .indexError)
      else
        let X' := (X.zipIdx.filter fun (_, i) => referenced ps i).map (·.1)
        let ps' := ps.map fun p => ⟨p.dk, p.u - removedUpTo ps p.u, p.v - removedUpTo ps p.v⟩
        let st := { st with X := some X', y := { st.y with rel := some ps' } }
        match st.prior with
        | none => (st, some .typeError)
        | some (a, b) => ({ st with prior := some (a, b - (X.length - X'.length : Nat)) }, none)

/-- `add_prior` (`PreferenceModel.py:75-103`) once the prior points `pts` have been generated (method
'random') or passed in ('exact'). Without Pareto pairs it only prints a message. -/
def addPrior (pareto : Bool) (st : ModelState d α R) (pts : List (Fin d → α)) :
    ModelState d α R × Option PyErr :=
  if pareto = false then (st, none)
  else
    let n := (st.X.getD []).length
    let st := { st with prior := some (n, ((n + pts.length : Nat) : Int)) }
    let (st, e) := modelAdd pareto st pts (.pairs [])
    match e with
    | some e => (st, some e)
    | none => removeUnreferenced st

/-- Python slice `l[a:b]` with `a ≥ 0` and `b` possibly negative. -/
def pySlice {β : Type*} (l : List β) (a : Nat) (b : Int) : List β :=
  let b' : Nat := if b < 0 then ((l.length : Int) + b).toNat else b.toNat
  (l.take b').drop a

/-- `get_prior_pts` (`PreferenceModel.py:157-161`); slicing `None` raises `TypeError`. -/
def getPriorPts (st : ModelState d α R) : Except PyErr (Option (List (Fin d → α))) :=
  match st.prior with
  | none => .ok none
  | some (a, b) => match st.X with
    | none => .error .typeError
    | some X => .ok (some (pySlice X a b))

/-- `optimize` without hyper-parameter search (`PreferenceGP.py:337-338`, `PreferenceLinear.py:69-108`):
fit the mode to the current data. Without training points it raises (evaluating the kernel on `None`,
resp. `None.shape`). The numerical work is abstracted to "computed from `(X, y)`". -/
def modelOptimize (st : ModelState d α R) : ModelState d α R × Option PyErr :=
  match st.X with
  | none => (st, some .attributeError)
  | some X => ({ st with fitted := some (X, st.y), optimized := true }, none)

/-- Hyper-parameter search aborted by an exception after one fold: `hyperparameter_search` sets
`optimized = True` right after `find_mode` on the fold (`PreferenceGP.py:317-318,372`), and an exception
below leaves it set. With only ordinal labels this happens on every search: the two random numbers drawn for the other
probits pass as the ordinal parameters, but `OrdinalProbit` inherits the `calc_W_dF` that raises
(`PreferenceGP.py:538`, `ProbitBase.py:129-130`). `idxs` is the fold. -/
def modelOptimizeAborted (st : ModelState d α R) (idxs : List Nat) : ModelState d α R × Option PyErr :=
  match st.X with
  | none => (st, some .attributeError)
  | some X => ({ st with fitted := some (idxs.filterMap (X[·]?), getYWithIdx st.y idxs),
                         optimized := true }, some .notImplemented)

/-- `predict` (`PreferenceGP.py:97-117`, `PreferenceLinear.py:49-61`): `none` = prior prediction
without data, `some f` = prediction from the stored mode, which had been fitted to `f`. -/
def modelPredict (st : ModelState d α R) :
    ModelState d α R × Option (Option (List (Fin d → α) × Labels R)) :=
  match st.X with
  | none => (st, none)
  | some _ =>
    let st := if st.optimized then st else (modelOptimize st).1
    (st, some st.fitted)

/-- The effect of `AlignmentDecision.determine_query_type` on the model
(`src/lop/active_learning/MixedTypeDecision.py:98-173`): predict, fit without ratings, fit without
preferences, put the labels back. -/
def determineQueryType (st : ModelState d α R) : ModelState d α R :=
  let st := (modelPredict st).1
  let pref := st.y.rel
  let rating := st.y.abs
  let st := { st with y := { st.y with abs := none } }
  let st := (modelPredict (modelOptimize st).1).1
  let st := { st with y := { st.y with rel := none, abs := rating } }
  let st := (modelPredict (modelOptimize st).1).1
  { st with y := { st.y with rel := pref, abs := rating } }

end Lop
