import Verif.Model.Basic
import Mathlib.Data.List.Basic

/-! # Model of the results of an experiment
(`experiments/single_experiment.py:197-292`, `experiments/experiment_helper.py:518-521`, `659-800`)

The runs of `main` and what they leave in `train_data.npz`; the problems a run trains on and the shape of what it records.
The model that is trained, the pass over one planning problem and the evaluation are parameters; they may raise. -/

namespace Lop

/-! ## The runs of `main` -/

/-- The arrays of results (`single_experiment.py:203-213`). -/
inductive ResKey
  | avgCorrect | avgRanks | queryType | queryCorrect | ranks | estScores | realScores | spearmans | pearsons | rhos | scoreDiff
  deriving DecidableEq, Repr

/-- The order in which the results of a run are written (`single_experiment.py:252-264`). -/
def assignOrder : List ResKey :=
  [.avgCorrect, .avgRanks, .queryType, .queryCorrect, .ranks, .estScores, .realScores, .spearmans, .pearsons, .rhos, .scoreDiff]

/-- How one pass of the loop over the runs ends: with the results of `train_and_eval`, with an exception, or with a
`KeyboardInterrupt` after `k` of the arrays were written (`k = 0` while the run is going on). -/
inductive RunEnd (V : Type*)
  | done (r : ResKey → V)
  | raised (e : PyErr)
  | interrupted (r : ResKey → V) (k : Nat)

/-- `array[j] = value` for the first `k` arrays. -/
def writeRun {V : Type*} (arr : ResKey → List V) (j k : Nat) (r : ResKey → V) : ResKey → List V :=
  fun key => if key ∈ assignOrder.take k then (arr key).set j (r key) else arr key

/-- `np.savez(folder_name+'train_data', avg_correct=avg_correct[:j+1], ...)` (`single_experiment.py:267-278`, `283-294`):
the content of the file. -/
def saveFirst {V : Type*} (arr : ResKey → List V) (j : Nat) : ResKey → List V := fun key => (arr key).take (j + 1)

/-- How `main` ends. -/
inductive MainEnd
  | finished
  | exit
  | raised (e : PyErr)
  deriving DecidableEq, Repr

/-- The loop over the runs (`single_experiment.py:215-296`) from run `j` on: the file (if there is one) and how `main` ends.
After an interrupt the first `cur_run + 1` rows are saved. -/
def runsLoop {V : Type*} (arr : ResKey → List V) (file : Option (ResKey → List V)) :
    Nat → List (RunEnd V) → Option (ResKey → List V) × MainEnd
  | _, [] => (file, .finished)
  | j, .done r :: rest =>
    let arr := writeRun arr j assignOrder.length r
    runsLoop arr (some (saveFirst arr j)) (j + 1) rest
  | _, .raised e :: _ => (file, .raised e)
  | j, .interrupted r k :: _ => (some (saveFirst (writeRun arr j k r) j), .exit)

/-- All runs. `junk` is what `np.empty((num_runs, ...))` contains (`single_experiment.py:203-213`). -/
def mainRuns {V : Type*} (junk : ResKey → List V) (runs : List (RunEnd V)) : Option (ResKey → List V) × MainEnd :=
  runsLoop junk none 0 runs

/-! ## The problems of a run -/

/-- `np.random.choice(n, size=k, replace=False)`: `draw` is the outcome, `ValueError` if there are fewer than `k`. -/
def choiceNoRepl (draw : List Nat) (n k : Nat) : Except PyErr (List Nat) := if n < k then .error .valueError else .ok draw

/-- `array[r] = row` for an array of `width` columns: a row of another length is refused, except one value, which is repeated. -/
def storeFigures {ρ : Type*} (width : Nat) (row : List ρ) : Except PyErr (List ρ) :=
  if row.length = width then .ok row
  else match row with
    | [x] => .ok (List.replicate width x)
    | _ => .error .valueError

/-- One pass over the problem `i` and the evaluation after it. -/
def problemStep {P S ρ : Type*} (step : P → S → Except PyErr S) (evalF : S → Except PyErr (List ρ)) (probs : List P)
    (width : Nat) (i : Nat) (s : S) : Except PyErr (S × List ρ) :=
  match probs[i]? with
  | none => .error .indexError
  | some p => match step p s with
    | .error e => .error e
    | .ok s => match evalF s with
      | .error e => .error e
      | .ok row => match storeFigures width row with
        | .error e => .error e
        | .ok row => .ok (s, row)

/-- `for itr, i in enumerate(rand_order)` (`experiment_helper.py:688-797`): the model at the end and the recorded rows. -/
def problemLoop {P S ρ : Type*} (step : P → S → Except PyErr S) (evalF : S → Except PyErr (List ρ)) (probs : List P)
    (width : Nat) : List Nat → S → Except PyErr (S × List (List ρ))
  | [], s => .ok (s, [])
  | i :: rest, s => match problemStep step evalF probs width i s with
    | .error e => .error e
    | .ok (s, row) => match problemLoop step evalF probs width rest s with
      | .error e => .error e
      | .ok (s, rows) => .ok (s, row :: rows)

/-- The part of `train_and_eval` that reads the planning problems (`experiment_helper.py:518-521`, `659-800`):
`train` and `evals` are `path_data['train']` and `path_data['eval']`, a list of problems for every environment, `env` is
`env_num`; `s` is the model with the data added before the loop, `evalF` the evaluation on the given problems of the environment.
Negative `env_num` is not modelled. Returned are the model and the rows of one of the recorded arrays. -/
def runProblems {P S ρ : Type*} (step : P → S → Except PyErr S) (evalF : List P → S → Except PyErr (List ρ))
    (train evals : List (List P)) (env numTrain numEval : Nat) (draw : List Nat) (s : S) : Except PyErr (S × List (List ρ)) :=
  match (evals.map (List.take numEval))[env]? with
  | none => .error .indexError
  | some [] => .error .indexError
  | some (q :: qs) => match (evals.map (List.take numEval))[0]? with
    | none => .error .indexError
    | some first => match evalF (q :: qs) s with
      | .error e => .error e
      | .ok row0 => match storeFigures first.length row0 with
        | .error e => .error e
        | .ok row0 => match (train.map (List.take numTrain))[env]? with
          | none => .error .indexError
          | some probs => match choiceNoRepl draw probs.length numTrain with
            | .error e => .error e
            | .ok order => match problemLoop step (evalF (q :: qs)) probs first.length order s with
              | .error e => .error e
              | .ok (s, rows) => .ok (s, row0 :: rows)

end Lop
