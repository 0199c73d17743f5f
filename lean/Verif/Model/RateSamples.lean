import Verif.Model.Samples

/-! # Model of the learners that compare a rating query with a pair query, with the samples they share
(`src/lop/active_learning/RateChooseLearner.py`)

The whole of the three `select` methods; the decisions themselves are in `Model/Mixed.lean`. As there, what
the sub-learners compute from a set of samples is a function parameter, and printing is left out. `σ` is the type
of a set of samples. -/

namespace Lop

variable {σ α : Type}

/-- The samples set on `pairwise_l` and on the rating learner whose metric is compared (`abs_l` of a
`RateChooseLearner`, `abs_comp` of the other two). -/
structure RCState (σ : Type) where
  pairS : Option σ
  compS : Option σ

/-- What the outside gives to one call of `select`. -/
structure RCIn (σ α : Type) where
  draw : ℝ
  /-- `pairwise_l.model.predict(candidate_pts)` followed by `get_representative_Q` -/
  prepare : Except PyErr Unit
  /-- what sampling from the present model for the present candidates gives -/
  fresh : Except PyErr σ
  /-- `pairwise_l.select` and its `sel_metric`, from the samples it is computed with -/
  pair : σ → Except PyErr (α × ℝ)
  /-- `abs_l.select`, from the samples set on `abs_l` (`none`: nothing set) -/
  abs : Option σ → Except PyErr α
  /-- the metric of that rating query: `abs_l.sel_metric`, or `sel_metric` of `abs_comp` after its
  `select_greedy(…, abs_idxs, [])`, from the samples -/
  absMetric : σ → α → Except PyErr ℝ

/-- Lines common to the three methods (`RateChooseLearner.py:69-77`, `149-157`, `346-354`): the samples of
`pairwise_l` are unset, new ones drawn and set on both. -/
def rcPrepare (st : RCState σ) (i : RCIn σ α) : RCState σ × Except PyErr σ :=
  match i.prepare with
  | .error e => (⟨none, st.compS⟩, .error e)
  | .ok _ => match getSamples none i.fresh with
    | .error e => (⟨none, st.compS⟩, .error e)
    | .ok s => (⟨some s, some s⟩, .ok s)

/-- What a `select` of this family finds out before it decides: the pair query with its metric and the rating
query with its metric. `own` says that the compared rating learner is `abs_l` itself (so that it selects with the
samples that were set); otherwise `abs_l` has none of its own set. The sub-learners get the samples that are set
on them (`getSamples`). -/
def rcQueries (own : Bool) (st : RCState σ) (i : RCIn σ α) : RCState σ × Except PyErr (σ × (α × ℝ) × (α × ℝ)) :=
  match rcPrepare st i with
  | (st', .error e) => (st', .error e)
  | (st', .ok s) =>
    (st', do
      let sp ← getSamples st'.pairS i.fresh
      let p ← i.pair sp
      let a ← i.abs (if own then st'.compS else none)
      let sc ← getSamples st'.compS i.fresh
      let ma ← i.absMetric sc a
      pure (s, p, (a, ma)))

/-- The query of the chosen type. -/
def rcTake (c : Choice) (p a : α) : Choice × α :=
  match c with
  | .pair => (.pair, p)
  | .abs => (.abs, a)

/-- `RateChooseLearner.select` (`RateChooseLearner.py:68-98`). -/
noncomputable def rateChooseSelect (st : RCState σ) (i : RCIn σ α) : RCState σ × Except PyErr (Choice × α) :=
  let r := rcQueries true st i
  (r.1, r.2.map fun q => rcTake (rateChoosePick q.2.1.2 q.2.2.2 i.draw) q.2.1.1 q.2.2.1)

/-- `MixedComparision.select` (`RateChooseLearner.py:148-186`). -/
noncomputable def mixedCompSelect (alpha : ℝ) (st : RCState σ) (i : RCIn σ α) :
    RCState σ × Except PyErr (Choice × α) :=
  let r := rcQueries false st i
  (r.1, r.2.map fun q => rcTake (mixedCompPick alpha q.2.1.2 q.2.2.2 i.draw) q.2.1.1 q.2.2.1)

/-- `MixedComparisionEqualChecking.select` (`RateChooseLearner.py:345-399`) for candidates `cand` with `d`
coordinates; `eta2` is the effect size of the two columns of the samples, which may raise. A pair query that has not
exactly two members raises. -/
noncomputable def equalCheckSelect {d : Nat} (limit : ℝ) (cand : Nat → Fin d → ℝ) (eta2 : σ → Nat → Nat → ℝ)
    (st : RCState σ) (i : RCIn σ (List Nat)) : RCState σ × Except PyErr (Choice × List Nat) :=
  let r := rcQueries false st i
  (r.1, r.2.bind fun q =>
    match q.2.1.1 with
    | [x, y] => .ok (rcTake (equalCheckPick limit (eta2 q.1 x y) (cand x) (cand y) q.2.1.2 q.2.2.2 i.draw)
        [x, y] q.2.2.1)
    | _ => .error .notImplemented)

/-- Calls on one of these objects; `set_model` (`RateChooseLearner.py:105-107,194-197,407-410`) does not touch the
samples. -/
inductive RCOp (σ α : Type)
  | select (i : RCIn σ α)
  | setModel

/-- The samples after a call. -/
def rcStep (sel : RCState σ → RCIn σ α → RCState σ × Except PyErr (Choice × α)) (st : RCState σ) :
    RCOp σ α → RCState σ
  | .select i => (sel st i).1
  | .setModel => st

/-- The samples after a history of calls on a new object (`AcquisitionBase.py:62`). -/
def rcRun (sel : RCState σ → RCIn σ α → RCState σ × Except PyErr (Choice × α)) (ops : List (RCOp σ α)) :
    RCState σ :=
  ops.foldl (rcStep sel) ⟨none, none⟩

end Lop
