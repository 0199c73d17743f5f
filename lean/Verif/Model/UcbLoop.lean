import Verif.Model.GP
import Verif.Model.Select

/-! # Model of learning a function with `GP` and `UCBLearner`

The loop of `examples/active_learners/GP_UCB_learner.py:37-51`: select candidates with `model.select`, evaluate the function there,
`model.add`. The random candidates of every pass and the order in which Python lists sets are parameters. -/

namespace Lop

variable {d : Nat}

noncomputable section

/-- What a pass of the loop gets from outside: the candidates (`GP_UCB_learner.py:44`) and the orders in which the learner and `select` list
a set of indices. -/
structure UcbTurn (d : Nat) where
  cands : List (Pt d)
  ordL : Nat → Finset Nat → List Nat
  ord : Finset Nat → List Nat

/-- One pass (`GP_UCB_learner.py:44-52`): `select` predicts the candidates (`ActiveLearner.py:84`), takes `q` of them by their upper
confidence bounds, and `add` (`GP.py:65-78`) stores the measured values `f` with `training_sigma = s`. The mean function is the default. -/
def ucbTurn (cov : CovFn d) (alpha s : ℝ) (f : Pt d → ℝ) (q : Nat) (t : UcbTurn d) (st : GPState d) :
    Except PyErr (List Nat × GPState d) :=
  match gpRegress cov (fun _ => 0) st t.cands.get with
  | .error e => .error e
  | .ok p =>
    match learnerSelect (ucbLearner t.ordL (List.ofFn p.mu) (List.ofFn p.sigma) alpha) false true none t.ord (List.ofFn p.mu) q ∅ ∅ with
    | .error e => .error e
    | .ok sel =>
      .ok (sel, gpAdd (fun _ => 0) st ((sel.filterMap fun i => t.cands[i]?).map fun x => (x, f x, s)))

/-- The loop (`GP_UCB_learner.py:42-52`): the indices selected in every pass and the final training data. -/
def ucbRun (cov : CovFn d) (alpha s : ℝ) (f : Pt d → ℝ) (q : Nat) :
    List (UcbTurn d) → GPState d → Except PyErr (List (List Nat) × GPState d)
  | [], st => .ok ([], st)
  | t :: ts, st => match ucbTurn cov alpha s f q t st with
    | .error e => .error e
    | .ok (sel, st') => match ucbRun cov alpha s f q ts st' with
      | .error e => .error e
      | .ok (sels, st'') => .ok (sel :: sels, st'')

end

end Lop
