import Verif.Model.Basic
import Mathlib.Data.EReal.Basic

/-! # Model of `ActiveLearner.select_greedy_k` (`src/lop/active_learning/ActiveLearner.py:246-260`)

No other function of the library calls it. The arity of the method `select_greedy` of the learner is part of the
model, because the call on line 256 passes two arguments. -/

namespace Lop

/-- The signature of a bound method (without `self`): how many parameters have no default, how many have one. -/
structure Arity where
  required : Nat
  optional : Nat
  deriving DecidableEq, Repr

/-- Python accepts a call with `k` positional arguments. -/
def Arity.accepts (a : Arity) (k : Nat) : Bool := a.required ≤ k && k ≤ a.required + a.optional

/-- The signatures of the methods `select_greedy` of the library: `(candidate_pts, mu, data, indicies,
prev_selection)` everywhere (`ActiveLearner.py:243`, `AcquisitionBase.py:310`, `BestLearner.py:43,64`,
`GV_UCBLearner.py:44`, `UCBLearner.py:54`, `RandomLearner.py:39`, `AbsAcquisition.py:108`,
`MutualInfoLearner.py:63`, `AcquisitionSelection.py:93`, `AbsBayesInfo.py:107`, `ProbabilityLearner.py:47`), with
an additional `debug=False` in `BayesInfoGain.py:127`. -/
def libraryArities : List Arity := [⟨5, 0⟩, ⟨5, 1⟩]

/-- The loop of `select_greedy_k` (`ActiveLearner.py:255-258`) with `k` iterations left: the list
`cur_selection`, which is extended in place, next to the list `sel_values` or the exception. `greedy` is what
`select_greedy(cur_selection, data)` does once the call is accepted. -/
def greedyKLoop {ι : Type} (a : Arity) (greedy : List ι → Except PyErr (ι × EReal)) :
    Nat → List ι → List EReal → List ι × Except PyErr (List EReal)
  | 0, cur, vals => (cur, .ok vals)
  | k + 1, cur, vals =>
    if a.accepts 2 then
      match greedy cur with
      | .error e => (cur, .error e)
      | .ok (i, v) => greedyKLoop a greedy k (cur ++ [i]) (vals ++ [v])
    else (cur, .error .typeError)

/-- `select_greedy_k(cur_selection, num_alts, data)` (`ActiveLearner.py:249-260`). -/
noncomputable def selectGreedyK {ι : Type} (a : Arity) (greedy : List ι → Except PyErr (ι × EReal)) (cur : List ι)
    (numAlts : Int) : List ι × Except PyErr (List EReal) :=
  greedyKLoop a greedy (numAlts - cur.length).toNat cur (List.replicate cur.length ⊥)

end Lop
