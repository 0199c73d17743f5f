import Verif.Model.Data
import Mathlib.Analysis.SpecialFunctions.Sqrt
import Mathlib.Algebra.BigOperators.Fin

/-! # Model of `other/study_analysis_2022/read_study.py` and of `SimplelestModel`

The model under evaluation is a `PreferenceModel` (`ModelState`); what it predicts for given points is a parameter
`value`, a function of the training data the stored mode was fitted to (`none` without data). This fits
`PreferenceGP`, which uses no random numbers, and not `PreferenceLinear`, which draws its weights. -/

namespace Lop

variable {d : Nat} {α : Type*} [LinearOrder α] {R : Type*} [Field R] [LinearOrder R]

/-- One entry of `train` or `eval` of a study file: `rewards` and `index_prefered`. -/
structure StudySample (d : Nat) (α : Type*) where
  rewards : List (Fin d → α)
  best : Nat

/-- One of the parts `learn` and `neither-2` of a study file. -/
structure StudyRun (d : Nat) (α : Type*) where
  train : List (StudySample d α)
  evals : List (StudySample d α)

/-- What a model predicts, given the data it is fitted to. -/
abbrev StudyValue (d : Nat) (α R : Type*) :=
  Option (List (Fin d → α) × Labels R) → List (Fin d → α) → List ℝ

noncomputable section

/-- The loop of `eval_model` (`read_study.py:54-66`): the model afterwards and `count`. -/
def studyEvalLoop (value : StudyValue d α R) : ModelState d α R → List (StudySample d α) →
    Except PyErr (ModelState d α R × Nat)
  | st, [] => .ok (st, 0)
  | st, s :: rest =>
    let r := modelPredict st
    match npArgmax (value (r.2.join) s.rewards) with
    | .error e => .error e
    | .ok k => match studyEvalLoop value r.1 rest with
      | .error e => .error e
      | .ok (st', c) => .ok (st', c + if k = s.best then 1 else 0)

/-- `eval_model` (`read_study.py:53-69`). -/
def studyEvalModel (value : StudyValue d α R) (st : ModelState d α R) (ev : List (StudySample d α)) :
    Except PyErr (ModelState d α R × ℝ) :=
  match studyEvalLoop value st ev with
  | .error e => .error e
  | .ok (st', c) => if ev.length = 0 then .error .zeroDivision else .ok (st', (c : ℝ) / ev.length)

/-- The loop of `train_eval` (`read_study.py:36-44`), with the default order. -/
def trainEvalLoop (value : StudyValue d α R) (pareto : Bool) (ev : List (StudySample d α)) :
    ModelState d α R → List (StudySample d α) → Except PyErr (ModelState d α R × List ℝ)
  | st, [] => .ok (st, [])
  | st, t :: rest =>
    let pairs := genPairsFromIdx t.best (List.range t.rewards.length)
    match modelAdd pareto st t.rewards (.pairs pairs) with
    | (_, some e) => .error e
    | (st, none) => match studyEvalModel value st ev with
      | .error e => .error e
      | .ok (st, a) => match trainEvalLoop value pareto ev st rest with
        | .error e => .error e
        | .ok (st, as) => .ok (st, a :: as)

/-- `train_eval` (`read_study.py:26-46`). -/
def trainEval (value : StudyValue d α R) (pareto : Bool) (st : ModelState d α R) (r : StudyRun d α) :
    Except PyErr (ModelState d α R × List ℝ) :=
  match studyEvalModel value st r.evals with
  | .error e => .error e
  | .ok (st, a) => match trainEvalLoop value pareto r.evals st r.train with
    | .error e => .error e
    | .ok (st, as) => .ok (st, a :: as)

/-- `acc[i] = acc_local` (`read_study.py:89`) into a row of `m` entries: one entry is repeated, another length
raises. -/
def storeRow (m : Nat) : List ℝ → Except PyErr (List ℝ)
  | [a] => .ok (List.replicate m a)
  | l => if l.length = m then .ok l else .error .valueError

/-- The loop of `process_all_data` (`read_study.py:87-90`). -/
def processLoop (value : StudyValue d α R) (pareto : Bool) (m : Nat) :
    ModelState d α R → List (StudyRun d α) → Except PyErr (List (List ℝ))
  | _, [] => .ok []
  | st, r :: rest => match trainEval value pareto st r with
    | .error e => .error e
    | .ok (st, accs) => match storeRow m accs with
      | .error e => .error e
      | .ok row => match processLoop value pareto m (modelReset st) rest with
        | .error e => .error e
        | .ok rows => .ok (row :: rows)

/-- `process_all_data` (`read_study.py:72-92`) after reading the files; `data_runs[0]` raises without files. -/
def processAllData (value : StudyValue d α R) (pareto : Bool) (st : ModelState d α R) (runs : List (StudyRun d α)) :
    Except PyErr (List (List ℝ)) :=
  match runs with
  | [] => .error .indexError
  | r :: _ => processLoop value pareto (r.train.length + 1) st runs

/-- `SimplelestModel.predict` (`Model.py:141-145`) for points with several rewards: the sums, whatever was added. -/
def simplestValue (d : Nat) (R : Type*) : StudyValue d ℝ R := fun _ X => X.map fun x => ∑ k, x k

/-- Column `j` of the accuracies. -/
def column (acc : List (List ℝ)) (j : Nat) : List ℝ := acc.map fun row => row.getD j 0

/-- `np.mean` of a column. -/
def npMean (l : List ℝ) : ℝ := l.sum / l.length

/-- `np.std` of a column. -/
def npStd (l : List ℝ) : ℝ := Real.sqrt ((l.map fun a => (a - npMean l) ^ 2).sum / l.length)

/-- A curve of the figure: at every iteration its value and the half width of its band. -/
abbrev Curve := List (ℝ × ℝ)

/-- `mean_…` and `std_…` (`read_study.py:113-123`): the band is computed from `accStd`. -/
def studyCurve (accMean accStd : List (List ℝ)) (cols : Nat) : Curve :=
  (List.range cols).map fun j => (npMean (column accMean j), npStd (column accStd j) / Real.sqrt accMean.length)

/-- The first figure of `main` (`read_study.py:112-150`) from the accuracies of the linear model, the GP and the sum:
their curves. The band of the GP is computed from the accuracies of the linear model (line 118); the line of random
choices has six entries. -/
def studyFigure (accL accGp accS : List (List ℝ)) (cols : Nat) : Except PyErr (Curve × Curve × Curve) :=
  if cols = 6 then .ok (studyCurve accL accL cols, studyCurve accGp accL cols, studyCurve accS accS cols)
  else .error .valueError

end

end Lop
