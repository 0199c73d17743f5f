import Verif.Model.Basic
import Mathlib.Data.Real.Basic

/-! # Model of the experiment configuration
(`experiments/experiment_helper.py:36-423`, `experiments/single_experiment.py:97-180`)

Which objects `get_active_learner`, `get_model`, `get_fake_func` and `get_synth_user` build from the strings of the
command line, and how far `train_and_eval` gets with them. A constructed learner is described by its class and the
arguments given to the constructor. The keys of the configuration file are assumed to be present. Printing is left
out. -/

namespace Lop

/-- The alignment functions named in `experiment_helper.py:73-360`. -/
inductive AlignName
  | rho | loglikelihood | epic | spearman
  deriving DecidableEq, Repr

/-- The learners that are not composed of others. -/
inductive LeafKind
  | ucb | gvUcb | mutualInfo | mutualInfoFake | random | bayesProbit | bayes999 | absBayes
  | acq (a : AlignName) | absAcq (a : AlignName)
  deriving DecidableEq, Repr

/-- The learners that are composed of others. -/
inductive MixKind
  | rateChoose | mixedComparison | setFixed | alternating | alignDecision | equalChecking
  | mix | mixPeak | mixPeak2 | mixPeak3 | mixRevPeak | mixDecision | mixDecision2
  deriving DecidableEq, Repr

/-- A constructor call in the source text: the class, whether `rep_Q_method = rep_type, rep_Q_data = rep_pt_data` is
passed, and whether `default_to_pareto` and `always_select_best` are passed. -/
structure LeafCall where
  kind : LeafKind
  rep : Bool
  opts : Bool
  deriving DecidableEq, Repr

/-- A branch of the `if` chain of `get_active_learner`. The composed learners always get `default_to_pareto` and
`always_select_best`. -/
inductive Branch
  | single (l : LeafCall)
  | mixed (w : MixKind) (pair abs : LeafCall) (comp : Option LeafCall)
  deriving DecidableEq, Repr

/-- The `if`/`elif` chain of `get_active_learner` (`experiment_helper.py:55-360`) in its order; the second branch for
`MUTUAL_INFO` is never reached. -/
def learnerBranches : List (String × Branch) := [
    ("UCB", .single ⟨.ucb, false, true⟩),
    ("SGV_UCB", .single ⟨.gvUcb, false, true⟩),
    ("MUTUAL_INFO", .single ⟨.mutualInfo, false, true⟩),
    ("MUTUAL_INFO", .single ⟨.mutualInfo, false, true⟩),
    ("MUTUAL_INFO_PERF", .single ⟨.mutualInfoFake, false, true⟩),
    ("RANDOM", .single ⟨.random, false, true⟩),
    ("BAYES_INFO_GAIN_PROBIT", .single ⟨.bayesProbit, false, true⟩),
    ("ABS_BAYES_PROBIT", .single ⟨.bayesProbit, false, true⟩),
    ("BAYES_INFO_GAIN_999", .single ⟨.bayes999, false, true⟩),
    ("ACQ_RHO", .single ⟨(.acq .rho), true, true⟩),
    ("ACQ_LL", .single ⟨(.acq .loglikelihood), true, true⟩),
    ("ACQ_EPIC", .single ⟨(.acq .epic), true, true⟩),
    ("ACQ_SPEAR", .single ⟨(.acq .spearman), true, true⟩),
    ("ABS_ACQ_RHO", .single ⟨(.absAcq .rho), true, true⟩),
    ("ABS_ACQ_LL", .single ⟨(.absAcq .loglikelihood), true, true⟩),
    ("ABS_ACQ_EPIC", .single ⟨(.absAcq .epic), true, true⟩),
    ("ABS_ACQ_SPEAR", .single ⟨(.absAcq .spearman), true, true⟩),
    ("SW_ACQ_RHO", .mixed .rateChoose ⟨(.acq .rho), true, false⟩ ⟨(.absAcq .rho), true, false⟩ none),
    ("SW_ACQ_LL", .mixed .rateChoose ⟨(.acq .loglikelihood), true, false⟩ ⟨(.absAcq .loglikelihood), true, false⟩ none),
    ("SW_ACQ_EPIC", .mixed .rateChoose ⟨(.acq .epic), true, false⟩ ⟨(.absAcq .epic), true, false⟩ none),
    ("SW_ACQ_SPEAR", .mixed .rateChoose ⟨(.acq .spearman), false, false⟩ ⟨(.absAcq .spearman), false, false⟩ none),
    ("SW_BAYES_PROBIT", .mixed .rateChoose ⟨.bayesProbit, false, false⟩ ⟨.absBayes, false, false⟩ none),
    ("SW_UCB_RHO", .mixed .mixedComparison ⟨(.acq .rho), true, false⟩ ⟨.ucb, false, false⟩ (some ⟨(.absAcq .rho), true, false⟩)),
    ("SW_UCB_LL", .mixed .mixedComparison ⟨(.acq .loglikelihood), true, false⟩ ⟨.ucb, false, false⟩ (some ⟨(.absAcq .loglikelihood), true, false⟩)),
    ("SW_UCB_SPEAR", .mixed .mixedComparison ⟨(.acq .spearman), true, false⟩ ⟨.ucb, false, false⟩ (some ⟨(.absAcq .spearman), true, false⟩)),
    ("SW_UCB_EPIC", .mixed .mixedComparison ⟨(.acq .epic), true, false⟩ ⟨.ucb, false, false⟩ (some ⟨(.absAcq .epic), true, false⟩)),
    ("SW_FIXED_RHO", .mixed .setFixed ⟨(.acq .rho), true, false⟩ ⟨.ucb, false, false⟩ none),
    ("SW_FIXED_LL", .mixed .setFixed ⟨(.acq .loglikelihood), true, false⟩ ⟨.ucb, false, false⟩ none),
    ("SW_FIXED_SPEAR", .mixed .setFixed ⟨(.acq .spearman), true, false⟩ ⟨.ucb, false, false⟩ none),
    ("SW_FIXED_EPIC", .mixed .setFixed ⟨(.acq .epic), true, false⟩ ⟨.ucb, false, false⟩ none),
    ("SW_ALT_RHO", .mixed .alternating ⟨(.acq .rho), true, false⟩ ⟨.ucb, false, false⟩ none),
    ("SW_ALT_LL", .mixed .alternating ⟨(.acq .loglikelihood), true, false⟩ ⟨.ucb, false, false⟩ none),
    ("SW_ALT_SPEAR", .mixed .alternating ⟨(.acq .spearman), true, false⟩ ⟨.ucb, false, false⟩ none),
    ("SW_ALT_EPIC", .mixed .alternating ⟨(.acq .epic), true, false⟩ ⟨.ucb, false, false⟩ none),
    ("SW_DEC_RHO", .mixed .alignDecision ⟨(.acq .rho), true, false⟩ ⟨.ucb, false, false⟩ none),
    ("SW_DEC_LL", .mixed .alignDecision ⟨(.acq .loglikelihood), false, false⟩ ⟨.ucb, false, false⟩ none),
    ("SW_DEC_SPEAR", .mixed .alignDecision ⟨(.acq .spearman), true, false⟩ ⟨.ucb, false, false⟩ none),
    ("SW_DEC_EPIC", .mixed .alignDecision ⟨(.acq .epic), true, false⟩ ⟨.ucb, false, false⟩ none),
    ("SW_CHECK_RHO", .mixed .equalChecking ⟨(.acq .rho), true, false⟩ ⟨.ucb, false, false⟩ (some ⟨(.absAcq .rho), true, false⟩)),
    ("SW_CHECK_LL", .mixed .equalChecking ⟨(.acq .loglikelihood), true, false⟩ ⟨.ucb, false, false⟩ (some ⟨(.absAcq .loglikelihood), true, false⟩)),
    ("SW_CHECK_SPEAR", .mixed .equalChecking ⟨(.acq .spearman), true, false⟩ ⟨.ucb, false, false⟩ (some ⟨(.absAcq .spearman), true, false⟩)),
    ("SW_CHECK_EPIC", .mixed .equalChecking ⟨(.acq .epic), true, false⟩ ⟨.ucb, false, false⟩ (some ⟨(.absAcq .epic), true, false⟩)),
    ("SW_MIX_RHO", .mixed .mix ⟨(.acq .rho), true, false⟩ ⟨.ucb, false, false⟩ none),
    ("SW_MIX_LL", .mixed .mix ⟨(.acq .loglikelihood), true, false⟩ ⟨.ucb, false, false⟩ none),
    ("SW_MIX_SPEAR", .mixed .mix ⟨(.acq .spearman), true, false⟩ ⟨.ucb, false, false⟩ none),
    ("SW_MIX_EPIC", .mixed .mix ⟨(.acq .epic), true, false⟩ ⟨.ucb, false, false⟩ none),
    ("SW_MIX_PEAK_RHO", .mixed .mixPeak ⟨(.acq .rho), true, false⟩ ⟨.ucb, false, false⟩ none),
    ("SW_MIX_PEAK_LL", .mixed .mixPeak ⟨(.acq .loglikelihood), true, false⟩ ⟨.ucb, false, false⟩ none),
    ("SW_MIX_PEAK_SPEAR", .mixed .mixPeak ⟨(.acq .spearman), true, false⟩ ⟨.ucb, false, false⟩ none),
    ("SW_MIX_PEAK_EPIC", .mixed .mixPeak ⟨(.acq .epic), true, false⟩ ⟨.ucb, false, false⟩ none),
    ("SW_MIX_PEAK2_SPEAR", .mixed .mixPeak2 ⟨(.acq .spearman), true, false⟩ ⟨.ucb, false, false⟩ none),
    ("SW_MIX_PEAK3_SPEAR", .mixed .mixPeak3 ⟨(.acq .spearman), true, false⟩ ⟨.ucb, false, false⟩ none),
    ("SW_MIX_REV_PEAK_SPEAR", .mixed .mixRevPeak ⟨(.acq .spearman), true, false⟩ ⟨.ucb, false, false⟩ none),
    ("SW_MIX_DEC_SPEAR", .mixed .mixDecision ⟨(.acq .spearman), true, false⟩ ⟨.ucb, false, false⟩ (some ⟨(.absAcq .spearman), true, false⟩)),
    ("SW_MIX_DEC2_SPEAR", .mixed .mixDecision2 ⟨(.acq .spearman), true, false⟩ ⟨.ucb, false, false⟩ (some ⟨(.absAcq .spearman), true, false⟩))]

/-- `rep_Q_data`. -/
inductive RepData
  | counts (pts q : Nat)
  | file (name : String)
  deriving DecidableEq, Repr

/-- `rep_Q_method` and `rep_Q_data`. -/
structure RepArg where
  method : String
  data : RepData
  deriving DecidableEq, Repr

/-- A constructed learner that is not composed of others; `rep` is `none` for those without representative
queries, `scalar` is `none` for those without an exploration constant. -/
structure LeafObj where
  kind : LeafKind
  rep : Option RepArg
  pareto : Bool
  best : Bool
  scalar : Option ℝ
  fake : Bool

/-- A constructed learner. -/
inductive LearnerObj
  | single (l : LeafObj)
  | mixed (w : MixKind) (pair abs : LeafObj) (comp : Option LeafObj) (pareto best : Bool) (alpha : Option ℝ)

/-- The arguments of `get_active_learner` and the entries it reads from the configuration. -/
structure LearnerArgs where
  selType : String
  repType : String
  scalar : ℝ
  pareto : Bool
  cfgBest : Bool
  alpha : ℝ
  stableFile : String
  fake : Bool

/-- `rep_pt_data` (`experiment_helper.py:46-50`), not assigned for another `rep_pt_type`. -/
def repPtData (a : LearnerArgs) : Option RepData :=
  if a.repType = "sampled" then some (.counts 30 50)
  else if a.repType = "stable" then some (.file a.stableFile)
  else none

/-- `always_select_best` (`experiment_helper.py:38-41`). -/
def alwaysBest (a : LearnerArgs) : Bool := if a.selType = "rating" then false else a.cfgBest

/-- Default representative queries of `AcquisitionSelection` (`AcquisitionSelection.py:70`) and `AbsAcquisition`
(`AbsAcquisition.py:80`); the other learners have none. -/
def defaultRep : LeafKind → Option RepArg
  | .acq _ => some ⟨"sampled", .counts 60 50⟩
  | .absAcq _ => some ⟨"sampled", .counts 10 20⟩
  | _ => none

/-- The exploration constant: `UCB_scalar` is passed to every `UCBLearner` and `GV_UCBLearner`. -/
def leafScalar (a : LearnerArgs) : LeafKind → Option ℝ
  | .ucb => some a.scalar
  | .gvUcb => some a.scalar
  | _ => none

/-- The representative queries of a constructor call; reading `rep_pt_data` when it is not assigned raises
`UnboundLocalError`. -/
def leafRep (a : LearnerArgs) (c : LeafCall) : Except PyErr (Option RepArg) :=
  if c.rep then
    match repPtData a with
    | none => .error .unboundLocal
    | some d => .ok (some ⟨a.repType, d⟩)
  else .ok (defaultRep c.kind)

/-- A constructor call of `get_active_learner`. -/
def buildLeaf (a : LearnerArgs) (c : LeafCall) : Except PyErr LeafObj :=
  match leafRep a c with
  | .error e => .error e
  | .ok r => .ok
    { kind := c.kind, rep := r, pareto := c.opts && a.pareto, best := c.opts && alwaysBest a,
      scalar := leafScalar a c.kind, fake := decide (c.kind = .mutualInfoFake) && a.fake }

/-- `alpha` or `p_abs_param` of the composed learners that have one. -/
def mixAlpha (a : LearnerArgs) : MixKind → Option ℝ
  | .rateChoose | .setFixed | .alternating | .alignDecision | .equalChecking => none
  | _ => some a.alpha

/-- The optional third sub-learner. -/
def buildComp (a : LearnerArgs) : Option LeafCall → Except PyErr (Option LeafObj)
  | none => .ok none
  | some c => match buildLeaf a c with
    | .error e => .error e
    | .ok l => .ok (some l)

/-- The body of a branch. -/
def buildBranch (a : LearnerArgs) : Branch → Except PyErr LearnerObj
  | .single c => match buildLeaf a c with
    | .error e => .error e
    | .ok l => .ok (.single l)
  | .mixed w p b c =>
    match buildLeaf a p, buildLeaf a b, buildComp a c with
    | .ok pl, .ok bl, .ok cl => .ok (.mixed w pl bl cl a.pareto (alwaysBest a) (mixAlpha a w))
    | _, _, _ => .error .unboundLocal

/-- `get_active_learner` (`experiment_helper.py:36-363`); `none` is Python's `None`. -/
def getActiveLearner (selector : String) (a : LearnerArgs) : Except PyErr (Option LearnerObj) :=
  match learnerBranches.lookup selector with
  | none => .ok none
  | some b => match buildBranch a b with
    | .error e => .error e
    | .ok l => .ok (some l)

/-- `possible_selectors` (`single_experiment.py:97-112`). -/
def possibleSelectors : List String :=
  ["UCB", "SGV_UCB", "RANDOM", "MUTUAL_INFO", "MUTUAL_INFO_PERF",
   "BAYES_INFO_GAIN_PROBIT", "BAYES_INFO_GAIN_999",
   "ACQ_RHO", "ACQ_LL", "ACQ_EPIC", "ACQ_SPEAR",
   "SW_BAYES_PROBIT", "SW_ACQ_RHO", "SW_ACQ_EPIC", "SW_ACQ_LL", "SW_ACQ_SPEAR",
   "SW_UCB_RHO", "SW_UCB_EPIC", "SW_UCB_LL", "SW_UCB_SPEAR",
   "SW_FIXED_RHO", "SW_FIXED_EPIC", "SW_FIXED_LL", "SW_FIXED_SPEAR",
   "SW_ALT_RHO", "SW_ALT_EPIC", "SW_ALT_LL", "SW_ALT_SPEAR",
   "SW_DEC_RHO", "SW_DEC_EPIC", "SW_DEC_LL", "SW_DEC_SPEAR",
   "SW_CHECK_RHO", "SW_CHECK_EPIC", "SW_CHECK_LL", "SW_CHECK_SPEAR",
   "SW_MIX_RHO", "SW_MIX_EPIC", "SW_MIX_LL", "SW_MIX_SPEAR",
   "SW_MIX_PEAK_RHO", "SW_MIX_PEAK_EPIC", "SW_MIX_PEAK_LL", "SW_MIX_PEAK_SPEAR",
   "SW_MIX_PEAK2_SPEAR", "SW_MIX_PEAK2_EPIC", "SW_MIX_PEAK2_LL", "SW_MIX_PEAK2_SPEAR",
   "SW_MIX_PEAK3_SPEAR", "SW_MIX_PEAK3_EPIC", "SW_MIX_PEAK3_LL", "SW_MIX_PEAK3_SPEAR",
   "SW_MIX_DEC_SPEAR", "SW_MIX_DEC2_SPEAR", "SW_MIX_REV_PEAK_SPEAR",
   "ABS_ACQ_RHO", "ABS_ACQ_LL", "ABS_ACQ_EPIC", "ABS_ACQ_SPEAR",
   "ABS_BAYES_PROBIT"]

/-- `possible_selection_types` (`single_experiment.py:113`). -/
def possibleSelTypes : List String := ["choose1", "ranking", "rating", "switch"]

/-- `possible_fake_funcs` (`single_experiment.py:114`). -/
def possibleFakeFuncs : List String :=
  ["linear", "squared", "logistic", "sin_exp", "max", "min", "squared_min_max", "min_log"]

/-- `possible_models` (`single_experiment.py:115`). -/
def possibleModels : List String := ["gp", "linear"]

/-- How a run ends before its result: `sys.exit(0)` or an exception. -/
inductive Stop
  | exit
  | err (e : PyErr)
  deriving DecidableEq, Repr

/-- The strings of the command line that `train_and_eval` interprets. -/
structure RunArgs where
  selector : String
  selType : String
  repType : String
  model : String
  fakeFunc : String
  user : String
  hyper : String
  defPareto : String

/-- The checks of `main` (`single_experiment.py:160-180`): the selector, the fake function, the model, the selection
type and `def_pareto`. -/
def mainChecks (r : RunArgs) : Except Stop Bool :=
  if r.selector ∉ possibleSelectors then .error .exit
  else if r.fakeFunc ∉ possibleFakeFuncs then .error .exit
  else if r.model ∉ possibleModels then .error .exit
  else if r.selType ∉ possibleSelTypes then .error .exit
  else if r.defPareto = "true" then .ok true
  else if r.defPareto = "false" then .ok false
  else .error .exit

/-- `get_model` (`experiment_helper.py:365-395`): with another description `model` is `None` and
`model.probits` raises. -/
def getModel (desc hyper : String) : Except Stop Unit :=
  if desc = "gp" then
    if hyper = "no" then .ok ()
    else if hyper = "hyper" then .ok ()
    else .error .exit
  else if desc = "linear" then .ok ()
  else .error (.err .attributeError)

/-- The classes built by `get_fake_func`. -/
inductive FakeClass
  | linear | squared | logistic | sinExp | weightedMin | weightedMax | squaredMinMax | minLog
  deriving DecidableEq, Repr

/-- `get_fake_func` (`experiment_helper.py:405-423`); otherwise `func` is not assigned. -/
def getFakeFunc (desc : String) : Except PyErr FakeClass :=
  if desc = "linear" then .ok .linear
  else if desc = "squared" then .ok .squared
  else if desc = "logistic" then .ok .logistic
  else if desc = "sin_exp" then .ok .sinExp
  else if desc = "min" then .ok .weightedMin
  else if desc = "max" then .ok .weightedMax
  else if desc = "squared_min_max" then .ok .squaredMinMax
  else if desc = "min_log" then .ok .minLog
  else .error .unboundLocal

/-- The classes built by `get_synth_user`. -/
inductive UserClass
  | perfect | humanChoice2
  deriving DecidableEq, Repr

/-- `get_synth_user` (`experiment_helper.py:397-403`). -/
def getSynthUser (desc : String) : Except PyErr UserClass :=
  if desc = "perfect" then .ok .perfect
  else if desc = "human_choice" then .ok .humanChoice2
  else .error .unboundLocal

/-- `user_f.learn_beta(…)` (`experiment_helper.py:563`): only `HumanChoiceUser2` has the method
(`synthetic_user.py:54-78`); `outcome` is what it gives there. -/
def learnBetaCall (u : UserClass) (outcome : Except PyErr Unit) : Except PyErr Unit :=
  match u with
  | .perfect => .error .attributeError
  | .humanChoice2 => outcome

/-- Exceptions as ends of a run. -/
def stopOf {α : Type*} : Except PyErr α → Except Stop α
  | .ok x => .ok x
  | .error e => .error (.err e)

/-- The objects of a run. -/
structure RunObjs where
  learner : Option LearnerObj
  user : UserClass
  fake : FakeClass

/-- `train_and_eval` up to the calibration of the user (`experiment_helper.py:535-563`). No fake function is passed to
`get_active_learner`. `a` holds the numbers and file names; its strings and flags are replaced by those of the
command line. -/
def runSetup (r : RunArgs) (pareto : Bool) (a : LearnerArgs) (calib : Except PyErr Unit) : Except Stop RunObjs :=
  match stopOf (getActiveLearner r.selector
      { a with selType := r.selType, repType := r.repType, pareto := pareto, fake := false }) with
  | .error s => .error s
  | .ok l => match getModel r.model r.hyper with
    | .error s => .error s
    | .ok _ => match stopOf (getFakeFunc r.fakeFunc) with
      | .error s => .error s
      | .ok f => match stopOf (getSynthUser r.user) with
        | .error s => .error s
        | .ok u => match stopOf (learnBetaCall u calib) with
          | .error s => .error s
          | .ok _ => .ok ⟨l, u, f⟩

/-- `evaluation` with the learner of the run: `model.active_learner.select_best` (`experiment_helper.py:826`) needs a
learner for the first environment (line 521 has raised if there is none); `outcome` is what the evaluation gives with one. -/
def evalCall {ρ : Type*} (l : Option LearnerObj) (outcome : Except PyErr ρ) : Except PyErr ρ :=
  match l with
  | none => .error .attributeError
  | some _ => outcome

/-- `record_gp_state(model, utility_f, ...)` (`experiment_helper.py:681-682`) starts with `fake_f.w.shape[0]`
(`GP_visualization.py:15`); `FakeMinLog` has no `w` (`FakeFunction.py:303-310`). `outcome` is what the recording gives
otherwise. -/
def recordCall {ρ : Type*} (f : FakeClass) (outcome : Except PyErr ρ) : Except PyErr ρ :=
  match f with
  | .minLog => .error .attributeError
  | _ => outcome

/-- The first `select` of a learner. `RateChooseLearner.select` starts with `pairwise_l.unset_samples()`
(`RateChooseLearner.py:70`), which only the alignment learners have (`AcquisitionBase.py:256`);
`AlignmentDecision.select` returns two variables it has not assigned (`MixedTypeDecision.py:95`). Otherwise `outcome`
is what the call gives. -/
def firstSelect {ρ : Type*} (l : LearnerObj) (outcome : Except PyErr ρ) : Except PyErr ρ :=
  match l with
  | .mixed .alignDecision _ _ _ _ _ _ => match outcome with
    | .error e => .error e
    | .ok _ => .error .unboundLocal
  | .mixed .rateChoose p _ _ _ _ _ => if p.rep.isSome then outcome else .error .attributeError
  | _ => outcome

/-- What the calls outside the model give in a run. -/
structure RunOutcomes (ρ : Type*) where
  calib : Except PyErr Unit
  /-- the evaluation before the training -/
  eval0 : Except PyErr Unit
  /-- recording the state of the untrained model -/
  record0 : Except PyErr Unit
  /-- the first query selection -/
  select0 : Except PyErr Unit
  /-- the rest of the run after the first selection, the result of the run -/
  rest : Except PyErr ρ

/-- The whole run of `train_and_eval` from the checked arguments, with at least one training environment: set-up,
evaluation and recording of the untrained model (`experiment_helper.py:673-682`), the first selection, and the rest.
For `ranking` the pairs of a user other than the perfect one raise (`experiment_helper.py:742-743`). -/
def runExperiment {ρ : Type*} (r : RunArgs) (a : LearnerArgs) (o : RunOutcomes ρ) : Except Stop ρ :=
  match mainChecks r with
  | .error s => .error s
  | .ok pareto => match runSetup r pareto a o.calib with
    | .error s => .error s
    | .ok objs => match stopOf (evalCall objs.learner o.eval0) with
      | .error s => .error s
      | .ok _ => match stopOf (recordCall objs.fake o.record0) with
        | .error s => .error s
        | .ok _ => match objs.learner with
          | none => .error (.err .attributeError)
          | some l => match stopOf (firstSelect l o.select0) with
            | .error s => .error s
            | .ok _ =>
              if r.selType = "ranking" ∧ r.user ≠ "perfect" then .error (.err .exception)
              else stopOf o.rest

end Lop
