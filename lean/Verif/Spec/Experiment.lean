import Verif.Model.Experiment

/-! # What the names of the command line promise
The suffix of a selector names an alignment function, the prefix `SW_` a learner that switches between rating and
pair queries. -/

namespace Lop.Spec

/-- The alignment function in the name of a selector. -/
def namedAlign (s : String) : Option AlignName :=
  if s.endsWith "_RHO" then some .rho
  else if s.endsWith "_LL" then some .loglikelihood
  else if s.endsWith "_EPIC" then some .epic
  else if s.endsWith "_SPEAR" then some .spearman
  else none

/-- The learners an object consists of. -/
def parts : LearnerObj → List LeafObj
  | .single l => [l]
  | .mixed _ p b c _ _ _ => p :: b :: c.toList

/-- The alignment function of a learner. -/
def alignOf : LeafKind → Option AlignName
  | .acq a => some a
  | .absAcq a => some a
  | _ => none

/-- Learners whose query is always one candidate. -/
def asksRating : LeafKind → Bool
  | .absAcq _ => true
  | .absBayes => true
  | _ => false

/-- The learner is composed of others. -/
def isMixed : LearnerObj → Bool
  | .single _ => false
  | .mixed .. => true

/-- The requested representative queries. -/
def requestedRep (a : LearnerArgs) (r : RepArg) : Prop :=
  r.method = a.repType ∧ (a.repType = "sampled" → r.data = .counts 30 50) ∧
    (a.repType = "stable" → r.data = .file a.stableFile)

/-- The way of mixing in the name of a selector with prefix `SW_`: the words between the prefix and the alignment function. -/
def namedStrategy (s : String) : Option MixKind :=
  let t := "SW_"
  [("ACQ_", MixKind.rateChoose), ("BAYES_", .rateChoose), ("UCB_", .mixedComparison), ("FIXED_", .setFixed), ("ALT_", .alternating),
    ("DEC_", .alignDecision), ("CHECK_", .equalChecking), ("MIX_PEAK_", .mixPeak), ("MIX_PEAK2_", .mixPeak2), ("MIX_PEAK3_", .mixPeak3),
    ("MIX_REV_PEAK_", .mixRevPeak), ("MIX_DEC_", .mixDecision), ("MIX_DEC2_", .mixDecision2), ("MIX_", .mix)].findSome? fun e =>
      if s.startsWith (t ++ e.1) then some e.2 else none

/-- The learner in a name without prefix. -/
def namedLeaf (s : String) : Option LeafKind :=
  if s.startsWith "ABS_ACQ_" then (namedAlign s).map .absAcq
  else if s.startsWith "ACQ_" then (namedAlign s).map .acq
  else if s.startsWith "ABS_BAYES_" then some .absBayes
  else if s = "BAYES_INFO_GAIN_PROBIT" then some .bayesProbit
  else if s = "BAYES_INFO_GAIN_999" then some .bayes999
  else if s = "UCB" then some .ucb
  else if s = "SGV_UCB" then some .gvUcb
  else if s = "RANDOM" then some .random
  else if s = "MUTUAL_INFO" then some .mutualInfo
  else if s = "MUTUAL_INFO_PERF" then some .mutualInfoFake
  else none

/-- The mixing learners that compare both kinds of query with a third learner. -/
def hasComparison : MixKind → Bool
  | .mixedComparison | .equalChecking | .mixDecision | .mixDecision2 => true
  | _ => false

/-- The parts a mixing learner should have: one asking pairs and one asking ratings with the named alignment function (information gain for the
names with `BAYES`), the upper confidence bound learner in place of the latter unless the strategy is `rateChoose`, and a comparison learner with the
named alignment function for those that compare. -/
def mixRoles (s : String) (w : MixKind) (pair abs : LeafKind) (comp : Option LeafKind) : Prop :=
  match namedAlign s with
  | none => w = .rateChoose ∧ pair = .bayesProbit ∧ abs = .absBayes ∧ comp = none
  | some a => pair = .acq a ∧ abs = (if w = .rateChoose then .absAcq a else .ucb) ∧ comp = (if hasComparison w then some (.absAcq a) else none)

instance (s : String) (w : MixKind) (p b : LeafKind) (c : Option LeafKind) : Decidable (mixRoles s w p b c) := by
  unfold mixRoles; split <;> infer_instance

/-- The fake functions and the words for them. -/
def fakeNames : List (String × FakeClass) :=
  [("linear", .linear), ("squared", .squared), ("logistic", .logistic), ("sin_exp", .sinExp), ("min", .weightedMin), ("max", .weightedMax),
    ("squared_min_max", .squaredMinMax), ("min_log", .minLog)]

end Lop.Spec
