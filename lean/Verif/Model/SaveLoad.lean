import Verif.Model.Data
import Mathlib.Algebra.Order.Floor.Ring

/-! # Model of recording and reloading a training step

`record_gp_state` (`experiments/GP_visualization.py:12-65`) writes the training data of a model into an `.npz` file;
`model_load`, `filter_by_time` and `get_filepath` (`examples/active_learners/query_decision/intermediate_loading.py:16-84`)
find such a file and put its data into a model again.  NumPy's file format is not modelled: an array comes back as the
same array, and `None` comes back as a 0-dimensional array holding `None` (which is not `None`). -/

namespace Lop

/-- A Python attribute that the code expects to be `None` or an array, but that can also be the 0-dimensional object array
which `np.load` returns for a saved `None`. -/
inductive Attr (β : Type*)
  | none
  | arr (b : β)
  | zeroD
  deriving DecidableEq

/-- An attribute as the constructor and `add` leave it. -/
def Attr.ofOption {β : Type*} : Option β → Attr β
  | .none => .none
  | .some b => .arr b

/-- An attribute after `np.savez` and `np.load(…, allow_pickle=True)`. -/
def Attr.stored {β : Type*} : Option β → Attr β
  | .none => .zeroD
  | .some b => .arr b

/-- The fields of the file that `model_load` reads, with the arrays that NumPy makes of a tuple of two arrays: both rows get one
type, so the indices of the ratings become floats. -/
structure NpzFile (d : Nat) (α R : Type*) where
  pts : Attr (List (Fin d → α))
  pref0 : Attr (List Pair)
  pref1 : Attr (List (Int × Nat))
  pref2 : Attr (List (R × R))
  prior : Attr (Nat × Int)

/-- A `PreferenceModel` whose attributes may be 0-dimensional arrays (`PreferenceModel.py:44-61`). -/
structure PyModel (d : Nat) (α R : Type*) where
  X : Attr (List (Fin d → α))
  y : Labels R
  prior : Attr (Nat × Int)
  optimized : Bool
  fitted : Option (List (Fin d → α) × Labels R)

section
variable {d : Nat} {α : Type*} [LinearOrder α] {R : Type*} [Field R] [LinearOrder R]

/-- What `record_gp_state` saves (`GP_visualization.py:40-49,60-65`); both branches save the same five fields. -/
def recordState (st : ModelState d α R) : NpzFile d α R where
  pts := .stored st.X
  pref0 := .stored st.y.rel
  pref1 := .stored st.y.ord
  pref2 := .stored (st.y.abs.map fun l => l.map fun r => (r.1, (r.2 : R)))
  prior := .stored st.prior

/-- A model that was never loaded. -/
def PyModel.ofState (st : ModelState d α R) : PyModel d α R where
  X := .ofOption st.X
  y := st.y
  prior := .ofOption st.prior
  optimized := st.optimized
  fitted := st.fitted

/-- `model_load(model, filepath)` (`intermediate_loading.py:65-84`).  `astype(int)` truncates. -/
def modelLoad [FloorRing R] (m : PyModel d α R) (f : NpzFile d α R) : PyModel d α R where
  X := f.pts
  y := { rel := match f.pref0 with
           | .arr ps => some ps
           | _ => none
         ord := none
         abs := match f.pref2 with
           | .arr rs => some (rs.map fun r => (r.1, ⌊r.2⌋.toNat))
           | _ => none }
  prior := f.prior
  optimized := false
  fitted := m.fitted

/-- `add` (`PreferenceModel.py:187-279`); `len` of a 0-dimensional array raises `TypeError` (line 195). -/
def pyAdd (pareto : Bool) (m : PyModel d α R) (X : List (Fin d → α)) (inp : AddInput R) : PyModel d α R × Option PyErr :=
  let go := fun (X0 : Option (List (Fin d → α))) =>
    let r := modelAdd pareto { X := X0, y := m.y, optimized := m.optimized, fitted := m.fitted } X inp
    ({ m with X := .ofOption r.1.X, y := r.1.y, optimized := r.1.optimized, fitted := r.1.fitted }, r.2)
  match m.X with
  | .none => go none
  | .arr X0 => go (some X0)
  | .zeroD => (m, some .typeError)

/-- `PreferenceGP.predict` (`PreferenceGP.py:97-117`).  A 0-dimensional `X_train` is not `None`, so that the code fits the mode
(or predicts from the stored one) and raises when it evaluates the kernel on it, or takes its length (`PreferenceGP.py:221-223`);
we write `TypeError`, the class depends on the kernel. -/
def pyPredict (m : PyModel d α R) : PyModel d α R × Except PyErr (Option (Option (List (Fin d → α) × Labels R))) :=
  let go := fun (X0 : Option (List (Fin d → α))) =>
    let r := modelPredict { X := X0, y := m.y, optimized := m.optimized, fitted := m.fitted }
    ({ m with optimized := r.1.optimized, fitted := r.1.fitted }, .ok r.2)
  match m.X with
  | .none => go none
  | .arr X0 => go (some X0)
  | .zeroD => (m, .error .typeError)

/-- `get_prior_pts` (`PreferenceModel.py:157-161`): indexing a 0-dimensional array raises `IndexError`, slicing `None` raises
`TypeError`. -/
def pyPriorPts (m : PyModel d α R) : Except PyErr (Option (List (Fin d → α))) :=
  match m.prior with
  | .none => .ok none
  | .zeroD => .error .indexError
  | .arr (a, b) => match m.X with
    | .none => .error .typeError
    | .zeroD => .error .indexError
    | .arr X => .ok (some (pySlice X a b))

end

/-! ## Finding the file -/

section

/-- `dt.strptime(s, fmt_str)`: `ValueError` if `s` does not have the format. -/
def parseTime {D : Type} (strptime : List Char → Option D) (s : List Char) : Except PyErr D :=
  match strptime s with
  | none => .error .valueError
  | some t => .ok t

/-- `n.split('/')[5][-19:]` (`intermediate_loading.py:26`). -/
def folderStamp (n : List Char) : Except PyErr (List Char) :=
  match (n.splitOn '/')[5]? with
  | none => .error .indexError
  | some s => .ok (s.drop (s.length - 19))

/-- `n[-34:-15]` (`intermediate_loading.py:29,34`). -/
def tailStamp (n : List Char) : List Char := (n.take (n.length - 15)).drop (n.length - 34)

/-- A list comprehension `[n for n in names if test(n)]` whose test may raise. -/
def filterRaise {β : Type} (test : β → Except PyErr Bool) : List β → Except PyErr (List β)
  | [] => .ok []
  | n :: ns => do
    let b ← test n
    let rest ← filterRaise test ns
    return if b then n :: rest else rest

/-- `filter_by_time(names, after, before)` (`intermediate_loading.py:16-38`). -/
def filterByTime {D : Type} [LinearOrder D] (strptime : List Char → Option D) (names : List (List Char))
    (after before : Option (List Char)) : Except PyErr (List (List Char)) :=
  match after, before with
  | some a, some b => do
    let a ← parseTime strptime a
    let b ← parseTime strptime b
    filterRaise (fun n => do
      let s ← folderStamp n
      let t ← parseTime strptime s
      return decide (t > a) && decide (t < b)) names
  | some a, none => do
    let a ← parseTime strptime a
    filterRaise (fun n => do
      let t ← parseTime strptime (tailStamp n)
      return decide (t > a)) names
  | none, some b => do
    let b ← parseTime strptime b
    filterRaise (fun n => do
      let t ← parseTime strptime (tailStamp n)
      return decide (t < b)) names
  | none, none => .ok names

/-- The result of `get_filepath`: all names, or one. -/
inductive FoundPath
  | all (names : List (List Char))
  | one (name : List Char)
  deriving DecidableEq

/-- `get_filepath(…, idx)` (`intermediate_loading.py:56-62`), where `found` is what `glob` returned for the pattern of lines
46-53. -/
def getFilepath {D : Type} [LinearOrder D] (strptime : List Char → Option D) (found : List (List Char)) (idx : Int) :
    Except PyErr FoundPath := do
  let possible ← filterByTime strptime found (some "2024-10-28_00-00-00".toList) (some "2025-10-22_00-00-00".toList)
  if idx = -1 then return .all possible
  else match possible with
    | [] => .error .indexError
    | n :: _ => return .one n

end

end Lop
