import Verif.Model.Mixed
import Verif.Model.Select

/-! # Model of the shared utility samples
(`set_samples`, `unset_samples`, `get_samples_from_model` of `src/lop/active_learning/AcquisitionBase.py`
and their use in `MixedStrategy.py`)

`σ` is the type of a set of samples (`all_rep`, `all_Q`). A sub-learner that has samples set is `some s`,
one whose flag `samples_set` is false is `none`. -/

namespace Lop

variable {σ α : Type*}

/-- `get_samples_from_model` (`AcquisitionBase.py:259-298`): the samples that were set, if any, else a fresh
draw from the present model for the present candidates. -/
def getSamples (stored : Option σ) (fresh : Except PyErr σ) : Except PyErr σ :=
  match stored with
  | some s => .ok s
  | none => fresh

/-- The attributes of a `MixedDecision` object together with the samples set on `pairwise_l` and on
`abs_comp`. -/
structure MDSState (σ : Type*) where
  md : MDState
  pairS : Option σ
  compS : Option σ

/-- What the outside gives to one call of `MixedDecision.select`. -/
structure MDSIn (σ α : Type*) where
  draw : ℝ
  /-- `abs_l.select` -/
  abs : Except PyErr α
  /-- what sampling from the present model for the present candidates gives -/
  fresh : Except PyErr σ
  /-- `pairwise_l.select` and its second call, from the samples it is computed with -/
  pairSel : σ → Except PyErr α
  pairSel2 : σ → Except PyErr α
  /-- `abs_comp.select` on its samples and then the two metrics -/
  metrics : σ → σ → Except PyErr (ℝ × ℝ)

/-- `MixedDecision.select`, `MixedDecision2.select` (`MixedStrategy.py:214-297`, `364-447`) with the samples:
lines 256-263 draw new samples in a decision and set them on both sub-learners; nothing unsets them later. -/
noncomputable def mdsSelect (prob : Nat → ℝ) (st : MDSState σ) (i : MDSIn σ α) :
    MDSState σ × Except PyErr (Choice × α) :=
  if st.md.calls = 5 ∨ st.md.calls = 10 ∨ st.md.calls = 15 ∨ st.md.state = 3 then
    match i.fresh with
    | .error e => (⟨⟨st.md.calls, 3⟩, none, st.compS⟩, .error e)
    | .ok s =>
      let r := mdSelect prob ⟨st.md.calls, 3⟩ ⟨i.draw, i.abs, i.pairSel s, i.pairSel2 s, i.metrics s s⟩
      (⟨r.1, some s, some s⟩, r.2)
  else
    let pair := (getSamples st.pairS i.fresh).bind i.pairSel
    let r := mdSelect prob st.md ⟨i.draw, i.abs, pair, pair, .error .exception⟩
    (⟨r.1, st.pairS, st.compS⟩, r.2)

/-- Calls on a `MixedDecision` object. -/
inductive MDSOp (σ α : Type*)
  | select (i : MDSIn σ α)
  | setModel

/-- The attributes after a call; `set_model` (`MixedStrategy.py:304-309`, `ActiveLearner.py:52-53`) does not
touch the samples. -/
noncomputable def mdsStep (prob : Nat → ℝ) (st : MDSState σ) : MDSOp σ α → MDSState σ
  | .select i => (mdsSelect prob st i).1
  | .setModel => ⟨⟨0, 0⟩, st.pairS, st.compS⟩

/-- The attributes after `set_model` on a new object and a history of calls. -/
noncomputable def mdsRun (prob : Nat → ℝ) (ops : List (MDSOp σ α)) : MDSState σ :=
  ops.foldl (mdsStep prob) ⟨⟨0, 0⟩, none, none⟩

/-- What `AcquisitionSelection.select_pair` computes from a set of samples (`AcquisitionSelection.py:188-236`):
the metric of all pairs of the candidates *of the samples* and its sorting. -/
structure SampledMetric (K : Type*) where
  N : Nat
  m : Fin N → Fin N → K
  sorted : List (Fin N × Fin N)

/-- `AcquisitionSelection.select` when there is training data, computed with the samples `s`. -/
def acqSelect {K : Type*} [LinearOrder K] (s : SampledMetric K)
    (greedy : Nat → Finset Nat → Finset Nat → Except PyErr Nat) (draw : Nat → Nat → Nat)
    (alwaysBest pairFirst : Bool) (ord : Finset Nat → List Nat) (mu : List K) (numAlts : Nat)
    (prefer prev : Finset Nat) : Except PyErr (List Nat) :=
  learnerSelect (metricLearner greedy (fun _ => s.m) (fun _ => s.sorted) draw) alwaysBest pairFirst none
    ord mu numAlts prefer prev

end Lop
