import Verif.Model.SampleSets

/-! # Model of `AcquisitionBase.get_representative_Q`
(`src/lop/active_learning/AcquisitionBase.py:69-119`) -/

namespace Lop

/-- The size of a query (`AcquisitionBase.py:71-76`); `none` when the attribute `num_alts` does not
exist. -/
def repAlts : Option Nat → Nat
  | some 1 => 2
  | some k => k
  | none => 2

/-- `itertools.combinations(l, k)`, in its order. -/
def combos {β : Type*} : List β → Nat → List (List β)
  | _, 0 => [[]]
  | [], _ + 1 => []
  | x :: xs, k + 1 => (combos xs k).map (x :: ·) ++ combos xs (k + 1)

/-- The attributes `rep_Q_method` and `rep_Q_data`; `file` stands for the array in the data file. -/
inductive RepMethod (P : Type*)
  | sampled (numPts numQ : Nat)
  | stable (file : List P)
  | other

/-- What `get_representative_Q` returns: `(None, None)` or points and queries. -/
abbrev RepRet (P : Type*) := Option (List P × List (List Nat))

/-- The points to choose from (`AcquisitionBase.py:84-91`); appending `None` raises. -/
def repPool {P : Type*} (xs : List P) (cand : Option (List P)) : Except PyErr (List P) :=
  if xs.length < 4 then
    match cand with
    | none => .error .valueError
    | some c => .ok (xs ++ c)
  else .ok xs

/-- `get_representative_Q` (`AcquisitionBase.py:69-119`). `xTrain` is `model.X_train`, `cand` the
argument, `choice` the result of `np.random.choice(num_X_train, N, replace=False)` (line 93) as a
function of its two arguments, `rng` the draws of `sample_unique_sets` and `fuel` a bound on its passes
(`.ok none`: still running). -/
def repQ {P : Type*} (numAlts : Option Nat) (method : RepMethod P) (xTrain cand : Option (List P))
    (choice : Nat → Nat → List Nat) (rng : Nat → Nat → List Nat) (fuel : Nat) :
    Except PyErr (Option (RepRet P)) :=
  let k := repAlts numAlts
  match method with
  | .sampled numPts numQ =>
    match xTrain with
    | none => .ok (some none)
    | some xs =>
      match repPool xs cand with
      | .error e => .error e
      | .ok pool =>
        let N := min pool.length numPts
        let pts := (choice pool.length N).filterMap fun i => pool[i]?
        match sampleUniqueSets (List.range N) rng (repNumQ numQ N k) k fuel with
        | .error e => .error e
        | .ok none => .ok none
        | .ok (some q) => .ok (some (some (pts, q)))
  | .stable file =>
    let per := file.length / 10
    let cs := combos (List.range per) k
    -- `combs.shape[1]` of an empty one-dimensional array
    if cs = [] then .error .indexError
    else .ok (some (some (file,
      (List.range 10).flatMap fun i => cs.map fun c => c.map (· + i * per))))
  | .other => .error .valueError

end Lop
