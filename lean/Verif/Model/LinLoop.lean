import Verif.Model.Data
import Verif.Model.FakeFunction

/-! # Model of the loop of `examples/active_learners/pref_linear_learner.py`

The questions are the rows `x_canidiates[test_pt_idxs]`; how `select` finds them (C45, C141, C142) and the random
candidates are parameters. Plotting is not modelled, except that `plot_data` calls `model.predict`. -/

namespace Lop

variable {d : Nat}

/-- The loop (`pref_linear_learner.py:110-127`) for the questions `qs`, with `fc = f`: the item with the highest value
is preferred to every other item of its question. -/
noncomputable def linLearnerLoop (f : (Fin d → ℝ) → ℝ) : ModelState d ℝ ℝ → List (List (Fin d → ℝ)) →
    Except PyErr (ModelState d ℝ ℝ)
  | st, [] => .ok st
  | st, q :: rest =>
    match npArgmax (q.map f) with
    | .error e => .error e
    | .ok k =>
      match modelAdd false st q (.pairs (genPairsFromIdx k (List.range q.length))) with
      | (_, some e) => .error e
      | (st, none) => linLearnerLoop f (modelPredict st).1 rest

/-- The script up to the end of the loop (`pref_linear_learner.py:96-127`): an empty model, plotted once. -/
noncomputable def linLearnerScript (f : (Fin d → ℝ) → ℝ) (qs : List (List (Fin d → ℝ))) :
    Except PyErr (ModelState d ℝ ℝ) :=
  linLearnerLoop f (modelPredict {}).1 qs

end Lop
