import Verif.Model.Basic
import Mathlib.Logic.Function.Basic

/-! # Which model a learner works for, and the belief cached by `BayesInfoGain`

`src/lop/models/Model.py`, the methods `set_model` of the learners, and `BayesInfoGain.get_p_B_probit`. Objects have an
identity (a number); an attribute that another object may also change is kept in a table indexed by identities. -/

namespace Lop

/-- How `select` of a learner with the sub-learners `pairwise_l`, `abs_l` works: it takes samples from the model of `pairwise_l` for both and
asks both (`RateChooseLearner.py:68-98`), it asks both (`RateChooseLearner.py:241-256,288-303`), or it asks one of them
(`MixedStrategy.py:73-88`). -/
inductive Mode2
  | sampling | both | one
  deriving DecidableEq, Repr

/-- The same with a third sub-learner `abs_comp`: samples for `pairwise_l` and `abs_comp`, then both others are asked and `abs_comp` evaluates
the rating query (`RateChooseLearner.py:148-186,345-399`); samples, then `pairwise_l` and `abs_comp` are asked and afterwards possibly one of the
others (`MixedStrategy.py:255-291,405-441`); or one of `pairwise_l`, `abs_l` is asked (`MixedStrategy.py:222-253,372-403`). -/
inductive Mode3
  | sampling | deciding | one
  deriving DecidableEq, Repr

/-- A learner object. A simple learner may be one that works with samples (`AcquisitionBase.py`) or not; only those have the methods
`set_samples`, `unset_samples`. -/
inductive LearnerTree
  | simple (id : Nat) (acq : Bool)
  | two (id : Nat) (mode : Mode2) (pair abs : LearnerTree)
  | three (id : Nat) (mode : Mode3) (pair abs comp : LearnerTree)
  deriving DecidableEq, Repr

/-- The identity of the object. -/
def LearnerTree.id : LearnerTree → Nat
  | .simple i _ => i
  | .two i _ _ _ => i
  | .three i _ _ _ _ => i

/-- The attributes `model` of the learner objects; `none` after construction (`ActiveLearner.py:43`). -/
abbrev ModelAttrs := Nat → Option Nat

/-- `set_model(m)`: a simple learner stores the model (`ActiveLearner.py:52-53`), the others only hand it to their sub-learners
(`RateChooseLearner.py:105-107,194-197,261-264,407-410`, `MixedStrategy.py:93-96,304-309,454-458`); `AlignmentDecision`, which does store
it (`MixedTypeDecision.py:180-183`), never completes its first `select` (C52) and is left out. -/
def LearnerTree.setModel (m : Nat) : LearnerTree → ModelAttrs → ModelAttrs
  | .simple i _, h => Function.update h i (some m)
  | .two _ _ p a, h => a.setModel m (p.setModel m h)
  | .three _ _ p a c, h => c.setModel m (a.setModel m (p.setModel m h))

/-- Reading `obj.model` to use it; `None` has none of the methods. -/
def LearnerTree.modelOf (h : ModelAttrs) (l : LearnerTree) : Except PyErr (List Nat) :=
  match h l.id with
  | none => .error .attributeError
  | some m => .ok [m]

/-- Calling `set_samples` or `unset_samples`. -/
def LearnerTree.needSamples : LearnerTree → Except PyErr (List Nat)
  | .simple _ true => .ok []
  | _ => .error .attributeError

/-- Statements executed in turn, up to the first exception; each contributes the models it uses. -/
def inTurn : List (Except PyErr (List Nat)) → Except PyErr (List Nat)
  | [] => .ok []
  | .error e :: _ => .error e
  | .ok ms :: rest => match inTurn rest with
    | .error e => .error e
    | .ok ns => .ok (ms ++ ns)

/-- The models `select` uses, in the order of the uses (`ActiveLearner.py:82` for a simple learner; the references of the modes for the
others). `ask i` is the decision of the learner `i` when it chooses a sub-learner: `abs_l`, `pairwise_l`, or (while deciding) none. -/
def LearnerTree.consulted (h : ModelAttrs) (ask : Nat → Option Bool) : LearnerTree → Except PyErr (List Nat)
  | .simple i b => (LearnerTree.simple i b).modelOf h
  | .two _ .sampling p a =>
    inTurn [p.needSamples, p.modelOf h, a.needSamples, p.consulted h ask, a.consulted h ask]
  | .two _ .both p a => inTurn [p.consulted h ask, a.consulted h ask]
  | .two i .one p a => if ask i = some true then a.consulted h ask else p.consulted h ask
  | .three _ .sampling p a c =>
    inTurn [p.needSamples, p.modelOf h, c.needSamples, p.consulted h ask, a.consulted h ask, c.modelOf h]
  | .three i .deciding p a c =>
    inTurn [p.needSamples, p.modelOf h, c.needSamples, p.consulted h ask, c.consulted h ask,
      match ask i with
      | none => .ok []
      | some true => a.consulted h ask
      | some false => p.consulted h ask]
  | .three i .one p a _ => if ask i = some true then a.consulted h ask else p.consulted h ask

/-- The program state: the attributes `model` of the learners and `active_learner` of the models. -/
structure AttachState where
  attrs : ModelAttrs
  learnerOf : Nat → Option LearnerTree

/-- Operations: constructing a model (`Model.py:32-35`, called first by the constructors `PreferenceModel.py:41`, `GP.py:45`), and a
direct call of `set_model`. -/
inductive AttachOp
  | newModel (m : Nat) (l : Option LearnerTree)
  | setModel (l : LearnerTree) (m : Nat)

/-- One operation. -/
def attachStep (s : AttachState) : AttachOp → AttachState
  | .newModel m none => { s with learnerOf := Function.update s.learnerOf m none }
  | .newModel m (some l) => ⟨l.setModel m s.attrs, Function.update s.learnerOf m (some l)⟩
  | .setModel l m => { s with attrs := l.setModel m s.attrs }

/-- A program, from the start. -/
def attachRun (ops : List AttachOp) : AttachState :=
  ops.foldl attachStep ⟨fun _ => none, fun _ => none⟩

/-- `Model.select` (`Model.py:131-132`): the models whose predictions it uses. Without a learner it raises. -/
def modelSelect (s : AttachState) (ask : Nat → Option Bool) (m : Nat) : Except PyErr (List Nat) :=
  match s.learnerOf m with
  | none => .error .attributeError
  | some l => l.consulted s.attrs ask

/-! ## `BayesInfoGain.get_p_B_probit` -/

/-- The class of the model, as far as `get_p_B_probit` distinguishes it. -/
inductive BeliefModel
  | gp | linear | other
  deriving DecidableEq, Repr

/-- The attributes `first_call_greedy` and `p_B`, `probit_mat` (`none` = not yet assigned); `computed` counts how often the belief
was computed. -/
structure BeliefCache (β : Type) where
  first : Bool
  cache : Option β
  computed : Nat
  deriving DecidableEq, Repr

/-- The constructor (`ActiveLearner.py:42-47`). -/
def BeliefCache.init {β : Type} : BeliefCache β := ⟨true, none, 0⟩

/-- The first branch of `get_p_B_probit` (`BayesInfoGain.py:95-110`); `belief` is the pair `p_B`, `probit_mat` for the present model and
candidates. For a `PreferenceLinear` the call of `p_B_pref_linear` has one argument too many (line 106; `ActiveLearner.py:346`), for another
model the variables are not assigned. -/
def computeBelief {β : Type} (kind : BeliefModel) (belief : β) (s : BeliefCache β) : BeliefCache β × Except PyErr β :=
  match kind with
  | .gp => (⟨false, some belief, s.computed + 1⟩, .ok belief)
  | .linear => (s, .error .typeError)
  | .other => (s, .error .unboundLocal)

/-- Reading the attributes `p_B`, `probit_mat` (`BayesInfoGain.py:111-113`). -/
def readBelief {β : Type} : Option β → Except PyErr β
  | some b => .ok b
  | none => .error .attributeError

/-- `get_p_B_probit` (`BayesInfoGain.py:94-115`). -/
def getBelief {β : Type} (kind : BeliefModel) (belief : β) (s : BeliefCache β) : BeliefCache β × Except PyErr β :=
  if s.first then computeBelief kind belief s else (s, readBelief s.cache)

/-- A call of `select_greedy` or `select_pair`. -/
inductive BeliefCall
  | greedy | pair
  deriving DecidableEq, Repr

/-- The belief used in a call: `select_greedy` of an untrained model draws at random before asking for it
(`BayesInfoGain.py:132-138`), `select_pair` asks first (`BayesInfoGain.py:178-182`). -/
def beliefCall {β : Type} (kind : BeliefModel) (trained : Bool) (belief : β) (c : BeliefCall) (s : BeliefCache β) :
    BeliefCache β × Except PyErr (Option β) :=
  if c = .greedy ∧ trained = false then (s, .ok none)
  else
    let r := getBelief kind belief s
    (r.1, r.2.map some)

/-- The calls of one `select` in turn, up to the first exception. -/
def beliefCalls {β : Type} (kind : BeliefModel) (trained : Bool) (belief : β) :
    List BeliefCall → BeliefCache β → BeliefCache β × Except PyErr (List (Option β))
  | [], s => (s, .ok [])
  | c :: cs, s => match beliefCall kind trained belief c s with
    | (s', .error e) => (s', .error e)
    | (s', .ok b) => match beliefCalls kind trained belief cs s' with
      | (s'', .error e) => (s'', .error e)
      | (s'', .ok bs) => (s'', .ok (b :: bs))

/-- `select` (`ActiveLearner.py:74-75`): the flag is set first. -/
def beliefSelect {β : Type} (kind : BeliefModel) (trained : Bool) (belief : β) (cs : List BeliefCall) (s : BeliefCache β) :
    BeliefCache β × Except PyErr (List (Option β)) :=
  beliefCalls kind trained belief cs { s with first := true }

/-- An operation in the history of a learner: a `select`, or a direct call as the learners with `abs_comp` make it
(`RateChooseLearner.py:166,364`). -/
inductive BeliefOp (β : Type)
  | select (kind : BeliefModel) (trained : Bool) (belief : β) (cs : List BeliefCall)
  | direct (kind : BeliefModel) (trained : Bool) (belief : β) (c : BeliefCall)

/-- One operation; the caller catches an exception. -/
def beliefStep {β : Type} (s : BeliefCache β) : BeliefOp β → BeliefCache β
  | .select k t b cs => (beliefSelect k t b cs s).1
  | .direct k t b c => (beliefCall k t b c s).1

end Lop
