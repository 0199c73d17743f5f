import Verif.Model.SaveLoad

/-! # Specification for recorded and reloaded models -/

namespace Lop.Spec

/-- The stored fit, if it counts as current, belongs to the present training data. -/
def StoredFitCurrent {d : Nat} {α R : Type*} (st : ModelState d α R) : Prop :=
  st.optimized = true → ∃ X, st.X = some X ∧ st.fitted = some (X, st.y)

/-- The name of a file recorded in training: folder, date of the run, number of the run, number of the step. -/
def recordedName (folder date run step : List Char) : List Char :=
  folder ++ date ++ "/run_".toList ++ run ++ "/trainitr_".toList ++ step ++ "_viz.npz".toList

/-- A training step recorded by the experiments: what the name of the run says before its date, the date, the numbers of run
and step. -/
structure Recorded where
  stem : List Char
  date : List Char
  run : List Char
  step : List Char
  deriving DecidableEq

/-- The path of a recorded step, from the folder of the scripts that load it. -/
def Recorded.path (r : Recorded) : List Char :=
  recordedName ("../../../experiments/results/".toList ++ r.stem) r.date r.run r.step

/-- The name of the run has no slash and ends with a date, which has nineteen characters. -/
def Recorded.Valid (r : Recorded) : Prop := '/' ∉ r.stem ∧ '/' ∉ r.date ∧ r.date.length = 19

/-- A date has only digits, dashes and underscores. -/
def DateChars {D : Type*} (strptime : List Char → Option D) : Prop :=
  ∀ s t, strptime s = some t → ∀ c ∈ s, c.isDigit ∨ c = '-' ∨ c = '_'

end Lop.Spec

namespace Lop.Spec

variable {d : Nat} {α : Type*} [LinearOrder α] {R : Type*} [Field R] [LinearOrder R]

/-- What a user can do with a model next. -/
inductive Use (d : Nat) (α R : Type*)
  | add (X : List (Fin d → α)) (y : AddInput R)
  | predict

/-- What the user sees of it: the exception of `add`, if any, or the data the prediction is computed from. -/
inductive Seen (d : Nat) (α R : Type*)
  | added (e : Option PyErr)
  | predicted (r : Except PyErr (Option (Option (List (Fin d → α) × Labels R))))

/-- All that is seen in a sequence of uses. -/
def seen (pareto : Bool) (m : PyModel d α R) : List (Use d α R) → List (Seen d α R)
  | [] => []
  | .add X y :: us => .added (pyAdd pareto m X y).2 :: seen pareto (pyAdd pareto m X y).1 us
  | .predict :: us => .predicted (pyPredict m).2 :: seen pareto (pyPredict m).1 us

end Lop.Spec
