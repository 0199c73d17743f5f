import Verif.Model.Data

/-! # Model of which arrays a `PreferenceModel` shares with its caller
(`src/lop/models/PreferenceModel.py:166-279`).

`Verif.Model.Data` treats arrays as values. Here they live in a memory: `add` stores a reference to the
caller's array where the code does (`self.X_train = X`, the views `new_y[:,0]`, `idxs = y[1]`) and
allocates a new one where numpy does (`np.append`, `np.array`, `np.where`). Automatic Pareto pairs are
left out: they always go into a new array. -/

namespace Lop

variable {d : Nat} {α : Type*} [LinearOrder α] {R : Type*} [Field R] [LinearOrder R]

/-- The content of an array: points, an (n,2) array of ordinals, or an array of indices. -/
inductive Cell (d : Nat) (α : Type*)
  | points (l : List (Fin d → α))
  | ords (l : List (Int × Nat))
  | idxs (l : List Nat)

/-- Do two cells hold the same kind of array of the same length (an array cannot change its shape in
place)? -/
def Cell.sameShape : Cell d α → Cell d α → Bool
  | .points l, .points m => l.length = m.length
  | .ords l, .ords m => l.length = m.length
  | .idxs l, .idxs m => l.length = m.length
  | _, _ => false

/-- Arrays by address; the flag says that the caller created the array. -/
abbrev Mem (d : Nat) (α : Type*) := List (Bool × Cell d α)

/-- A model's view of its training data. -/
structure View (d : Nat) (α R : Type*) where
  points : Option (List (Fin d → α))
  rel : Option (List Pair)
  ord : Option (List (Int × Nat))
  abs : Option (List R × List Nat)

/-- Caller and model: the memory and the fields of the model that refer to it. `fitted` is the data at
the time of the last fit. -/
structure AliasState (d : Nat) (α R : Type*) where
  mem : Mem d α := []
  X : Option Nat := none
  rel : Option (List Pair) := none
  ord : Option Nat := none
  abs : Option (List R × Nat) := none
  optimized : Bool := false
  fitted : Option (View d α R) := none

/-- The points at an address. -/
def pointsAt (m : Mem d α) (a : Nat) : Option (List (Fin d → α)) :=
  match m[a]? with
  | some (_, .points l) => some l
  | _ => none

/-- The ordinals at an address. -/
def ordsAt (m : Mem d α) (a : Nat) : Option (List (Int × Nat)) :=
  match m[a]? with
  | some (_, .ords l) => some l
  | _ => none

/-- The indices at an address. -/
def idxsAt (m : Mem d α) (a : Nat) : Option (List Nat) :=
  match m[a]? with
  | some (_, .idxs l) => some l
  | _ => none

/-- What the model would read now. -/
def AliasState.view (st : AliasState d α R) : View d α R :=
  { points := st.X.bind (pointsAt st.mem), rel := st.rel, ord := st.ord.bind (ordsAt st.mem),
    abs := st.abs.bind fun e => (idxsAt st.mem e.2).map fun l => (e.1, l) }

/-- The labels of an `add` call; `ordinalMat` and `absTuple` pass an array by address. -/
inductive AliasInput (R : Type*)
  | pairs (y : List Pair)
  | ordinalVec (y : List Int)
  | ordinalMat (a : Nat)
  | absVec (v : List R)
  | absTuple (v : List R) (a : Nat)

/-- Storing ordinals (`PreferenceModel.py:214-231`) that the array at address `a`, with content `l`,
holds. The first time the model keeps views of that array; later `np.append` copies. -/
def aliasOrd (st : AliasState d α R) (a : Nat) (l : List (Int × Nat)) :
    AliasState d α R × Option PyErr :=
  if l.any (fun r => r.1 ≤ 0) then (st, some .exception)
  else match st.ord with
    | none => ({ st with ord := some a, optimized := false }, none)
    | some b =>
      ({ st with mem := st.mem ++ [(false, .ords ((ordsAt st.mem b).getD [] ++ l))],
                 ord := some st.mem.length, optimized := false }, none)

/-- Storing ratings (`PreferenceModel.py:243-252`) with the index array at address `a`, content `l`. -/
def aliasAbs (st : AliasState d α R) (v : List R) (a : Nat) (l : List Nat) :
    AliasState d α R × Option PyErr :=
  if v.any (fun r => r < 0) ∨ v.any (fun r => r > 1) then (st, some .valueError)
  else match st.abs with
    | none => ({ st with abs := some (v.map clampRating, a), optimized := false }, none)
    | some (w, b) =>
      ({ st with mem := st.mem ++ [(false, .idxs ((idxsAt st.mem b).getD [] ++ l))],
                 abs := some (w ++ v.map clampRating, st.mem.length), optimized := false }, none)

/-- The label part of `add` (`PreferenceModel.py:198-252,278`). Arrays the code creates (`np.empty`,
`np.arange`) are allocated first. An address that does not hold the right kind of array is no call of
the modelled kind and does nothing. -/
def aliasLabels (st : AliasState d α R) (lenX : Nat) : AliasInput R → AliasState d α R × Option PyErr
  | .pairs ps =>
    let ps := if lenX > 0 then ps.map (fun p => ⟨p.dk, p.u + lenX, p.v + lenX⟩) else ps
    if ps.isEmpty then ({ st with optimized := false }, none)
    else ({ st with rel := appendOpt st.rel ps, optimized := false }, none)
  | .ordinalVec v =>
    let l := v.zipIdx.map fun (a, i) => (a, i + lenX)
    aliasOrd { st with mem := st.mem ++ [(false, .ords l)] } st.mem.length l
  | .ordinalMat a => match ordsAt st.mem a with
    | some l => aliasOrd st a l
    | none => (st, none)
  | .absVec v =>
    let l := (List.range v.length).map (· + lenX)
    aliasAbs { st with mem := st.mem ++ [(false, .idxs l)] } v st.mem.length l
  | .absTuple v a => match idxsAt st.mem a with
    | some l => aliasAbs st v a l
    | none => (st, none)

/-- The points part of `add` (`PreferenceModel.py:191-196`): the first array is kept by reference,
later ones are appended into a new array. -/
def aliasPoints (st : AliasState d α R) (a : Nat) (new : List (Fin d → α)) : AliasState d α R :=
  match st.X with
  | none => { st with X := some a }
  | some b =>
    { st with mem := st.mem ++ [(false, .points ((pointsAt st.mem b).getD [] ++ new))],
              X := some st.mem.length }

/-- `add(X, y, type)` (`PreferenceModel.py:187-279`) with the points in the array at address `a`. -/
def aliasAdd (st : AliasState d α R) (a : Nat) (inp : AliasInput R) : AliasState d α R × Option PyErr :=
  match pointsAt st.mem a with
  | none => (st, none)
  | some new =>
    let lenX := ((st.X.bind (pointsAt st.mem)).getD []).length
    aliasLabels (aliasPoints st a new) lenX inp

/-- `reset` (`PreferenceModel.py:166-169`). -/
def aliasReset (st : AliasState d α R) : AliasState d α R :=
  { st with X := none, rel := none, ord := none, abs := none }

/-- `predict` (`PreferenceGP.py:97-117`): fits if there is data and no valid fit. -/
def aliasPredict (st : AliasState d α R) : AliasState d α R :=
  match st.X with
  | none => st
  | some _ => if st.optimized then st else { st with fitted := some st.view, optimized := true }

/-- The caller creates an array. -/
def aliasNew (st : AliasState d α R) (c : Cell d α) : AliasState d α R :=
  { st with mem := st.mem ++ [(true, c)] }

/-- The caller writes into one of its own arrays. -/
def aliasWrite (st : AliasState d α R) (a : Nat) (c : Cell d α) : AliasState d α R :=
  match st.mem[a]? with
  | some (true, c0) => if c0.sameShape c then { st with mem := st.mem.set a (true, c) } else st
  | _ => st

end Lop
