import Verif.Model.Basic
import Mathlib.Analysis.SpecialFunctions.Exp

/-! # Model of the learners which mix rating and pair queries
(`src/lop/active_learning/RateChooseLearner.py`, `MixedStrategy.py`, `MixedTypeDecision.py`)

The sub-learners are outside this model: one `select` call of a mixed learner receives, as arguments,
what the calls `pairwise_l.select(…)`, `abs_l.select(…)` give (a value or an exception), the attribute
`sel_metric` of the sub-learners, and the draw of `np.random.random()`. Real numbers idealise floats.
Printing is left out. -/

namespace Lop

variable {α : Type*}

/-! ## Schedules -/

/-- What the sub-learners give in one call of `select`. -/
structure SubSel (α : Type*) where
  pair : Except PyErr α
  abs : Except PyErr α

/-- A call on a mixed learner with a call counter. -/
inductive MixOp (α : Type*)
  | select (s : SubSel α)
  | setModel

/-- `MixedComparisionSetFixed.select` (`RateChooseLearner.py:241-253`); `n` is `self.num_calls`. -/
def setFixedSelect (n : Nat) (s : SubSel α) : Nat × Except PyErr α :=
  match s.pair with
  | .error e => (n, .error e)
  | .ok p => match s.abs with
    | .error e => (n, .error e)
    | .ok a => (n + 1, .ok (if n > 7 then p else a))

/-- `MixedAlternating.select` (`RateChooseLearner.py:288-300`). -/
def alternatingSelect (n : Nat) (s : SubSel α) : Nat × Except PyErr α :=
  match s.pair with
  | .error e => (n, .error e)
  | .ok p => match s.abs with
    | .error e => (n, .error e)
    | .ok a => (n + 1, .ok (if n % 2 = 0 then p else a))

/-- The counter after a call; `set_model` sets it to zero (`RateChooseLearner.py:261-264`). -/
def mixStep (sel : Nat → SubSel α → Nat × Except PyErr α) (n : Nat) : MixOp α → Nat
  | .select s => (sel n s).1
  | .setModel => 0

/-- The counter after a history of calls, starting from the constructor (`RateChooseLearner.py:216`). -/
def mixRun (sel : Nat → SubSel α → Nat × Except PyErr α) (ops : List (MixOp α)) : Nat :=
  ops.foldl (mixStep sel) 0

/-! ## Comparing metrics -/

/-- Which query was taken. -/
inductive Choice
  | pair | abs
  deriving DecidableEq, Repr

/-- The decision of `RateChooseLearner.select` (`RateChooseLearner.py:86-95`) from the two metrics and
the draw, which is only used on a tie. -/
noncomputable def rateChoosePick (pairMetric absMetric draw : ℝ) : Choice :=
  if pairMetric > absMetric then .pair
  else if pairMetric = absMetric then (if draw > 0.5 then .pair else .abs)
  else .abs

/-- The decision of `MixedComparision.select` (`RateChooseLearner.py:162-183`): the metrics are scaled
by `alpha` and `1 - alpha`; the second test uses the unscaled pair metric. -/
noncomputable def mixedCompPick (alpha pairMetric absMetric draw : ℝ) : Choice :=
  let am := alpha * absMetric
  let pm := (1 - alpha) * pairMetric
  if pm > am then .pair
  else if pairMetric = am then (if draw > 0.5 then .pair else .abs)
  else .abs

/-- The decision of `MixedComparisionEqualChecking.select` (`RateChooseLearner.py:369-396`) for a pair
query of the two candidates `x`, `y` with effect size `eta2`: `(pts == pts[::-1]).all(axis=0).any()`
tests whether some coordinate of the two candidates agrees. -/
noncomputable def equalCheckPick {d : Nat} (limit eta2 : ℝ) (x y : Fin d → ℝ)
    (pairMetric absMetric draw : ℝ) : Choice :=
  open Classical in
  if (∃ c, x c = y c) ∧ eta2 < limit then .abs
  else rateChoosePick pairMetric absMetric draw

/-! ## Mixing probabilities -/

/-- `MixedStrategy.mixed_probability` (`MixedStrategy.py:50-51`). -/
def probFixed (param : ℝ) (_ : Nat) : ℝ := param

/-- `MixedStrategyPeak.mixed_probability` (`MixedStrategy.py:107-115`). -/
noncomputable def probPeak : Nat → ℝ
  | 0 => 0.1
  | 1 => 0.5
  | 2 => 0.9
  | n => 0.8 * Real.exp ((2 - (n : ℝ)) * 0.2) + 0.1

/-- `MixedStrategyPeak2.mixed_probability` (`MixedStrategy.py:125-133`). -/
noncomputable def probPeak2 : Nat → ℝ
  | 0 => 0.1
  | 1 => 0.5
  | 2 => 0.9
  | n => 0.9 * Real.exp ((2 - (n : ℝ)) * 0.2)

/-- `MixedStrategyPeak3.mixed_probability` (`MixedStrategy.py:144-152`). -/
noncomputable def probPeak3 (param : ℝ) : Nat → ℝ
  | 0 => 0.1
  | 1 => 0.5
  | 2 => 0.9
  | n => 0.9 * Real.exp ((2 - (n : ℝ)) * param)

/-- `MixedStrategyRevPeak.mixed_probability` (`MixedStrategy.py:164-170`) and
`MixedDecision2.mixed_probability` (`MixedStrategy.py:336-342`). -/
noncomputable def probRevPeak (param : ℝ) : Nat → ℝ
  | 0 => 0.9
  | 1 => 0.1
  | _ => param

/-- One draw against a probability (`MixedStrategy.py:76-81`). -/
noncomputable def drawPick (draw p : ℝ) : Choice := if draw ≤ p then .abs else .pair

/-- `MixedStrategy.select` (`MixedStrategy.py:73-86`) with the counter `n`, `none` before `set_model`
(the attribute does not exist). `prob` is `mixed_probability`; `usesCounter` says whether it reads the
counter (all but the base class). The result of the query and its type. -/
noncomputable def strategySelect (prob : Nat → ℝ) (usesCounter : Bool) (n : Option Nat) (draw : ℝ)
    (s : SubSel α) : Option Nat × Except PyErr (Choice × α) :=
  match n with
  | none =>
    if usesCounter then (none, .error .attributeError)
    else match drawPick draw (prob 0) with
      | .abs => match s.abs with
        | .error e => (none, .error e)
        | .ok _ => (none, .error .attributeError)
      | .pair => match s.pair with
        | .error e => (none, .error e)
        | .ok _ => (none, .error .attributeError)
  | some k => match drawPick draw (prob k) with
    | .abs => match s.abs with
      | .error e => (some k, .error e)
      | .ok a => (some (k + 1), .ok (.abs, a))
    | .pair => match s.pair with
      | .error e => (some k, .error e)
      | .ok p => (some (k + 1), .ok (.pair, p))

/-! ## `MixedDecision` -/

/-- The attributes `num_calls` and `state` of a `MixedDecision` object after `set_model`. -/
structure MDState where
  calls : Nat
  state : Nat
  deriving DecidableEq, Repr

/-- `ratio > 2.0` with `ratio = max(p/a, a/p)` (`MixedStrategy.py:269-272`) for numpy floats: a zero
metric gives an infinite or undefined quotient; Python's `max` keeps its first argument unless the
second compares greater. -/
noncomputable def ratioLarge (p a : ℝ) : Prop :=
  if p = 0 then (if a = 0 then False else 0 < a)
  else if a = 0 then 0 < p
  else max (p / a) (a / p) > 2

/-- What the outside gives to one call of `MixedDecision.select`. -/
structure MDIn (α : Type*) where
  draw : ℝ
  /-- `abs_l.select` -/
  abs : Except PyErr α
  /-- the first call of `pairwise_l.select` -/
  pair : Except PyErr α
  /-- the second call, made after an undecided comparison -/
  pair2 : Except PyErr α
  /-- sampling and `abs_comp.select` in the comparison, then the two metrics -/
  metrics : Except PyErr (ℝ × ℝ)

/-- `MixedDecision.select`, `MixedDecision2.select` (`MixedStrategy.py:214-297`, `364-447`) after
`set_model`. An exception leaves the attributes as they are at that moment. -/
noncomputable def mdSelect (prob : Nat → ℝ) (st : MDState) (i : MDIn α) :
    MDState × Except PyErr (Choice × α) :=
  open Classical in
  let state := if st.calls = 5 ∨ st.calls = 10 ∨ st.calls = 15 then 3 else st.state
  let finish (next : Nat) (c : Choice) (r : Except PyErr α) : MDState × Except PyErr (Choice × α) :=
    match r with
    | .error e => (⟨st.calls, state⟩, .error e)
    | .ok x => (⟨st.calls + 1, next⟩, .ok (c, x))
  let byDraw (p : ℝ) (next : Nat) (pair : Except PyErr α) :=
    match drawPick i.draw p with
    | .abs => finish next .abs i.abs
    | .pair => finish next .pair pair
  if state = 0 then byDraw (prob st.calls) 0 i.pair
  else if state = 1 then byDraw 0.95 1 i.pair
  else if state = 2 then byDraw 0.05 2 i.pair
  else match i.pair with
    | .error e => (⟨st.calls, state⟩, .error e)
    | .ok p => match i.metrics with
      | .error e => (⟨st.calls, state⟩, .error e)
      | .ok (mp, ma) =>
        if ratioLarge mp ma then
          if mp > ma then (⟨st.calls + 1, 2⟩, .ok (.pair, p))
          else match i.abs with
            -- `self.state = 1` is assigned before `abs_l.select` is called
            | .error e => (⟨st.calls, 1⟩, .error e)
            | .ok a => (⟨st.calls + 1, 1⟩, .ok (.abs, a))
        else byDraw (prob st.calls) 0 i.pair2

/-- Calls on a `MixedDecision` object. -/
inductive MDOp (α : Type*)
  | select (i : MDIn α)
  | setModel

/-- The attributes after a call (`set_model`: `MixedStrategy.py:304-309`). -/
noncomputable def mdStep (prob : Nat → ℝ) (st : MDState) : MDOp α → MDState
  | .select i => (mdSelect prob st i).1
  | .setModel => ⟨0, 0⟩

/-- The attributes after `set_model` and a history of calls. -/
noncomputable def mdRun (prob : Nat → ℝ) (ops : List (MDOp α)) : MDState :=
  ops.foldl (mdStep prob) ⟨0, 0⟩

/-! ## `AlignmentDecision` -/

/-- What `AlignmentDecision.select` returns on line 95: a tuple, not the indices alone. -/
structure AlignRet (α : Type*) where
  sel : α
  ratingScore : ℝ
  prefScore : ℝ

/-- `AlignmentDecision.select` (`MixedTypeDecision.py:68-95`). `decision` is what
`determine_query_type` gives. In the first `limit` calls `rating_score` and `pref_score` are never
assigned, so line 95 raises `UnboundLocalError` (after the counter has been increased). -/
def alignSelect (limit n : Nat) (decision : Except PyErr (Bool × ℝ × ℝ)) (s : SubSel α) :
    Nat × Except PyErr (AlignRet α) :=
  if n < limit then
    match (if n % 2 = 0 then s.pair else s.abs) with
    | .error e => (n, .error e)
    | .ok _ => (n + 1, .error .unboundLocal)
  else match decision with
    | .error e => (n, .error e)
    | .ok (selectPair, rating, pref) =>
      match (if selectPair then s.pair else s.abs) with
      | .error e => (n, .error e)
      | .ok x => (n + 1, .ok ⟨x, rating, pref⟩)

/-- A call of `AlignmentDecision.select` in a history, or `set_model` (`MixedTypeDecision.py:180-184`). -/
inductive AlignOp (α : Type*)
  | select (decision : Except PyErr (Bool × ℝ × ℝ)) (s : SubSel α)
  | setModel

/-- The counter after a call. -/
def alignStep (limit n : Nat) : AlignOp α → Nat
  | .select d s => (alignSelect limit n d s).1
  | .setModel => 0

end Lop
