import Verif.Model.TrainLoop
import Verif.Model.Data

/-! # Model of the training data gathered by a training run
(`experiments/experiment_helper.py:652-657`, `688-782`)

The loop of `Verif.Model.TrainLoop` with the calls of `model.add` carried out on the training data. The query selection, the
reduction of the candidates, the answers of the user and the evaluation are parameters; they may raise. The fits that selecting
and evaluating start change no training data and are left out: the fields `optimized` and `fitted` are not followed here. -/

namespace Lop

noncomputable section

variable {d : Nat}

/-- What one pass of the loop gets from outside: the candidates of the planning problem, those left after the reduction, what
`model.select` gives (indices shown, indices not shown) and the user: its choice, its rating of one candidate, the true utility.
`eval` is what the evaluation after the pass gives. -/
structure DataIn (d : Nat) where
  paths : List (Fin d → ℝ)
  rewards : Except PyErr (List (Fin d → ℝ))
  select : Except PyErr (List Nat × List Nat)
  choose : List (Fin d → ℝ) → Except PyErr Nat
  rate : (Fin d → ℝ) → Except PyErr ℝ
  util : (Fin d → ℝ) → ℝ
  eval : Except PyErr Unit

/-- The state of a run: the training data, and how the run ended so far. -/
abbrev RunState (d : Nat) := ModelState d ℝ ℝ × Except PyErr (Int × Int)

/-- A call of `model.add` that is followed by `k`. -/
def thenAdd (pareto : Bool) (st : ModelState d ℝ ℝ) (X : List (Fin d → ℝ)) (inp : AddInput ℝ)
    (k : ModelState d ℝ ℝ → RunState d) : RunState d :=
  match modelAdd pareto st X inp with
  | (st, some e) => (st, .error e)
  | (st, none) => k st

/-- `if len(non_shown_paths) > 0: model.add(rewards[non_shown_paths], [])` (`experiment_helper.py:748-753`); without
`config['pareto_pairs']` the list is empty (line 734). -/
def addHiddenPaths (pareto : Bool) (st : ModelState d ℝ ℝ) (rows : List (Fin d → ℝ)) (hidden : List Nat) : RunState d :=
  if pareto = true ∧ hidden.length > 0 then
    match takeRows rows hidden with
    | .error e => (st, .error e)
    | .ok h => thenAdd pareto st h (.pairs []) fun st => (st, .ok (pairQuery, -1))
  else (st, .ok (pairQuery, -1))

/-- `choose1` (`experiment_helper.py:727-753`). -/
def dataChoose (pareto : Bool) (i : DataIn d) (st : ModelState d ℝ ℝ) (rows : List (Fin d → ℝ)) : RunState d :=
  match i.select with
  | .error e => (st, .error e)
  | .ok (sel, hidden) => match takeRows rows sel with
    | .error e => (st, .error e)
    | .ok q => match choosePairs i.choose q with
      | .error e => (st, .error e)
      | .ok pairs => thenAdd pareto st q (.pairs pairs) fun st => addHiddenPaths pareto st rows hidden

/-- `ranking` (`experiment_helper.py:727-753`): `generate_ranking_pairs` gives `None`, and `model.add(X, None)` takes
`len(None)` before it does anything (`PreferenceModel.py:188-189`). -/
def dataRanking (perfect : Bool) (i : DataIn d) (st : ModelState d ℝ ℝ) (rows : List (Fin d → ℝ)) : RunState d :=
  match i.select with
  | .error e => (st, .error e)
  | .ok (sel, _) => match takeRows rows sel with
    | .error e => (st, .error e)
    | .ok _ => if perfect then (st, .error .typeError) else (st, .error .exception)

/-- `rating` (`experiment_helper.py:754-763`). -/
def dataRating (pareto : Bool) (i : DataIn d) (st : ModelState d ℝ ℝ) (rows : List (Fin d → ℝ)) : RunState d :=
  match i.select with
  | .error e => (st, .error e)
  | .ok (sel, _) => match sel with
    | [] => (st, .error .indexError)
    | s :: _ => match rows[s]? with
      | none => (st, .error .indexError)
      | some x => match i.rate x with
        | .error e => (st, .error e)
        | .ok r => thenAdd pareto st [x] (.absVec [r]) fun st => (st, .ok (absQuery, -1))

/-- The ratings of all shown candidates. -/
def rateAll (rate : (Fin d → ℝ) → Except PyErr ℝ) : List (Fin d → ℝ) → Except PyErr (List ℝ)
  | [] => .ok []
  | x :: xs => match rate x with
    | .error e => .error e
    | .ok r => match rateAll rate xs with
      | .error e => .error e
      | .ok rs => .ok (r :: rs)

/-- The entries written after a choice (`experiment_helper.py:780-781`). -/
def recordChoice (correct : Nat) (pairs : List Pair) (st : ModelState d ℝ ℝ) : RunState d :=
  match correctFlag correct pairs with
  | .error e => (st, .error e)
  | .ok f => (st, .ok (pairQuery, f))

/-- `switch` (`experiment_helper.py:764-781`). -/
def dataSwitch (pareto : Bool) (i : DataIn d) (st : ModelState d ℝ ℝ) (rows : List (Fin d → ℝ)) : RunState d :=
  match i.select with
  | .error e => (st, .error e)
  | .ok (sel, _) => match takeRows rows sel with
    | .error e => (st, .error e)
    | .ok q =>
      if sel.length = 1 then
        match rateAll i.rate q with
        | .error e => (st, .error e)
        | .ok rs => thenAdd pareto st q (.absVec rs) fun st => (st, .ok (absQuery, -1))
      else match npArgmax (q.map i.util) with
        | .error e => (st, .error e)
        | .ok correct => match choosePairs i.choose q with
          | .error e => (st, .error e)
          | .ok pairs => thenAdd pareto st q (.pairs pairs) (recordChoice correct pairs)

/-- One pass of the loop before its evaluation (`experiment_helper.py:688-781`). The update of `bounds` takes the extrema along
the wrong axis and indexes the first two of them (lines 698-704), so fewer than two candidates raise `IndexError`; the bounds are
not used otherwise. -/
def dataStep (selType : String) (perfect pareto : Bool) (i : DataIn d) (st : ModelState d ℝ ℝ) : RunState d :=
  if i.paths.length < 2 then (st, .error .indexError)
  else match i.rewards with
    | .error e => (st, .error e)
    | .ok rows =>
      if selType = "choose1" then dataChoose pareto i st rows
      else if selType = "ranking" then dataRanking perfect i st rows
      else if selType = "rating" then dataRating pareto i st rows
      else if selType = "switch" then dataSwitch pareto i st rows
      else (st, .ok (-1, -1))

/-- The training loop (`experiment_helper.py:688-797`): the training data when it ends, by an exception or not, and the entries
of the two arrays from position 1 on. -/
def dataLoop (selType : String) (perfect pareto : Bool) :
    List (DataIn d) → ModelState d ℝ ℝ → ModelState d ℝ ℝ × Except PyErr (List (Int × Int))
  | [], st => (st, .ok [])
  | i :: rest, st => match dataStep selType perfect pareto i st with
    | (st, .error e) => (st, .error e)
    | (st, .ok q) => match i.eval with
      | .error e => (st, .error e)
      | .ok _ => match dataLoop selType perfect pareto rest st with
        | (st, .error e) => (st, .error e)
        | (st, .ok qs) => (st, .ok (q :: qs))

/-- The settings `add_model_prior` (with the points drawn) and `add_abs_point` (with location and value). -/
structure StartData (d : Nat) where
  priorPts : Option (List (Fin d → ℝ)) := none
  absPoint : Option ((Fin d → ℝ) × ℝ) := none

/-- `if config['add_model_prior']: model.add_prior(...)` (`experiment_helper.py:652-653`). -/
def startPrior (pareto : Bool) (s : StartData d) (st : ModelState d ℝ ℝ) : ModelState d ℝ ℝ × Option PyErr :=
  match s.priorPts with
  | some pts => addPrior pareto st pts
  | none => (st, none)

/-- `if config['add_abs_point'] and model_desc != 'linear': ...` (`experiment_helper.py:654-657`). -/
def startAbs (pareto linear : Bool) (s : StartData d) (st : ModelState d ℝ ℝ) : ModelState d ℝ ℝ × Option PyErr :=
  match s.absPoint with
  | none => (st, none)
  | some (x, v) => if linear then (st, none) else modelAdd pareto st [x] (.absVec [v])

/-- The data added before the loop (`experiment_helper.py:652-657`); `linear` is `model_desc == 'linear'`. -/
def startRun (pareto linear : Bool) (s : StartData d) (st : ModelState d ℝ ℝ) : ModelState d ℝ ℝ × Option PyErr :=
  match startPrior pareto s st with
  | (st, some e) => (st, some e)
  | (st, none) => startAbs pareto linear s st

/-- A whole run on a new model, from the data before the loop on (`experiment_helper.py:652-797`); `eval0` is the evaluation of
the untrained model. -/
def dataRun (selType : String) (perfect pareto linear : Bool) (s : StartData d) (eval0 : Except PyErr Unit)
    (steps : List (DataIn d)) : ModelState d ℝ ℝ × Except PyErr (List (Int × Int)) :=
  match startRun pareto linear s {} with
  | (st, some e) => (st, .error e)
  | (st, none) => match eval0 with
    | .error e => (st, .error e)
    | .ok _ => dataLoop selType perfect pareto steps st

end

end Lop
