import Verif.Model.Experiment
import Verif.Spec.Experiment
import Mathlib.Tactic.Linarith

/-! # C81: the configuration of an experiment -/

namespace Lop.Props

open Lop Spec

theorem lookup_mem {β : Type*} {l : List (String × β)} {s : String} {b : β} (h : l.lookup s = some b) :
    (s, b) ∈ l := by
  induction l with
  | nil => simp at h
  | cons x xs ih =>
    obtain ⟨k, v⟩ := x
    rw [List.lookup_cons] at h
    by_cases hk : s = k
    · subst hk
      simp at h
      simp [h]
    · have : (s == k) = false := by simpa using hk
      rw [this] at h
      exact List.mem_cons_of_mem _ (ih h)

theorem lookup_none {β : Type*} {l : List (String × β)} {s : String} (h : ∀ b, (s, b) ∉ l) :
    l.lookup s = none := by
  cases hl : l.lookup s with
  | none => rfl
  | some b => exact absurd (lookup_mem hl) (h b)

/-- The calls of a branch. -/
def branchCalls : Branch → List LeafCall
  | .single c => [c]
  | .mixed _ p b c => p :: b :: c.toList

theorem buildLeaf_ok {a : LearnerArgs} {c : LeafCall} {l : LeafObj} (h : buildLeaf a c = .ok l) :
    l.kind = c.kind ∧ leafRep a c = .ok l.rep ∧ l.pareto = (c.opts && a.pareto) ∧
      l.best = (c.opts && alwaysBest a) ∧ l.scalar = leafScalar a c.kind ∧
      l.fake = (decide (c.kind = .mutualInfoFake) && a.fake) := by
  unfold buildLeaf at h
  split at h
  · cases h
  · next r hr =>
    cases h
    exact ⟨rfl, hr, rfl, rfl, rfl, rfl⟩

theorem buildLeaf_total {a : LearnerArgs} {c : LeafCall} (h : c.rep = false ∨ (repPtData a).isSome) :
    ∃ l, buildLeaf a c = .ok l := by
  have : ∃ r, leafRep a c = .ok r := by
    rcases h with h | h
    · exact ⟨_, by simp [leafRep, h]; rfl⟩
    · obtain ⟨d, hd⟩ := Option.isSome_iff_exists.1 h
      unfold leafRep
      rw [hd]
      cases c.rep
      · exact ⟨_, rfl⟩
      · exact ⟨_, rfl⟩
  obtain ⟨r, hr⟩ := this
  exact ⟨_, by rw [buildLeaf, hr]⟩

theorem buildLeaf_fails {a : LearnerArgs} {c : LeafCall} (h : c.rep = true) (hr : repPtData a = none) :
    buildLeaf a c = .error .unboundLocal := by
  simp [buildLeaf, leafRep, h, hr]

theorem buildBranch_single {a : LearnerArgs} {c : LeafCall} {l : LearnerObj}
    (h : buildBranch a (.single c) = .ok l) : ∃ o, l = .single o ∧ buildLeaf a c = .ok o := by
  simp only [buildBranch] at h
  split at h
  · cases h
  · next o ho => cases h; exact ⟨o, rfl, ho⟩

theorem buildBranch_mixed {a : LearnerArgs} {w : MixKind} {p b : LeafCall} {c : Option LeafCall} {l : LearnerObj}
    (h : buildBranch a (.mixed w p b c) = .ok l) :
    ∃ po bo co, l = .mixed w po bo co a.pareto (alwaysBest a) (mixAlpha a w) ∧ buildLeaf a p = .ok po ∧
      buildLeaf a b = .ok bo ∧ buildComp a c = .ok co := by
  simp only [buildBranch] at h
  split at h
  · next po bo co h1 h2 h3 => cases h; exact ⟨po, bo, co, rfl, h1, h2, h3⟩
  · cases h

/-- Every part of a built learner comes from a constructor call of the branch. -/
theorem parts_from_calls {a : LearnerArgs} {br : Branch} {l : LearnerObj} (h : buildBranch a br = .ok l)
    {o : LeafObj} (ho : o ∈ parts l) : ∃ c ∈ branchCalls br, buildLeaf a c = .ok o := by
  cases br with
  | single c =>
    obtain ⟨o', rfl, hc⟩ := buildBranch_single h
    simp only [parts, List.mem_singleton] at ho
    subst ho
    exact ⟨c, by simp [branchCalls], hc⟩
  | mixed w p b c =>
    obtain ⟨po, bo, co, rfl, hp, hb, hc⟩ := buildBranch_mixed h
    simp only [parts, List.mem_cons, Option.mem_toList] at ho
    rcases ho with rfl | rfl | ho
    · exact ⟨p, by simp [branchCalls], hp⟩
    · exact ⟨b, by simp [branchCalls], hb⟩
    · cases c with
      | none => simp [buildComp] at hc; subst hc; simp at ho
      | some c =>
        simp only [buildComp] at hc
        split at hc
        · cases hc
        · next o' h' =>
          cases hc
          simp at ho
          subst ho
          exact ⟨c, by simp [branchCalls], h'⟩

/-- Every constructor call of the branch gives a part of the built learner. -/
theorem calls_to_parts {a : LearnerArgs} {br : Branch} {l : LearnerObj} (h : buildBranch a br = .ok l)
    {c : LeafCall} (hc : c ∈ branchCalls br) : ∃ o ∈ parts l, buildLeaf a c = .ok o := by
  cases br with
  | single c' =>
    obtain ⟨o', rfl, h'⟩ := buildBranch_single h
    simp only [branchCalls, List.mem_singleton] at hc
    subst hc
    exact ⟨o', by simp [parts], h'⟩
  | mixed w p b co =>
    obtain ⟨po, bo, cO, rfl, hp, hb, h3⟩ := buildBranch_mixed h
    simp only [branchCalls, List.mem_cons, Option.mem_toList] at hc
    rcases hc with rfl | rfl | hc
    · exact ⟨po, by simp [parts], hp⟩
    · exact ⟨bo, by simp [parts], hb⟩
    · cases hc
      simp only [buildComp] at h3
      split at h3
      · cases h3
      · next o' h' => cases h3; exact ⟨o', by simp [parts], h'⟩

theorem buildBranch_total {a : LearnerArgs} {br : Branch}
    (h : (∀ c ∈ branchCalls br, c.rep = false) ∨ (repPtData a).isSome) : ∃ l, buildBranch a br = .ok l := by
  have hl : ∀ c ∈ branchCalls br, ∃ l, buildLeaf a c = .ok l := fun c hc =>
    buildLeaf_total (h.imp (fun h => h c hc) id)
  cases br with
  | single c =>
    obtain ⟨o, ho⟩ := hl c (by simp [branchCalls])
    exact ⟨.single o, by simp [buildBranch, ho]⟩
  | mixed w p b c =>
    obtain ⟨po, hp⟩ := hl p (by simp [branchCalls])
    obtain ⟨bo, hb⟩ := hl b (by simp [branchCalls])
    have : ∃ co, buildComp a c = .ok co := by
      cases c with
      | none => exact ⟨none, rfl⟩
      | some c =>
        obtain ⟨o, ho⟩ := hl c (by simp [branchCalls])
        exact ⟨some o, by simp [buildComp, ho]⟩
    obtain ⟨co, hc⟩ := this
    exact ⟨_, by simp only [buildBranch, hp, hb, hc]; rfl⟩

theorem buildBranch_fails {a : LearnerArgs} {br : Branch} (h : ∃ c ∈ branchCalls br, c.rep = true)
    (hr : repPtData a = none) : buildBranch a br = .error .unboundLocal := by
  cases hb : buildBranch a br with
  | ok l =>
    obtain ⟨c, hc, hrep⟩ := h
    obtain ⟨o, _, ho⟩ := calls_to_parts hb hc
    rw [buildLeaf_fails hrep hr] at ho
    cases ho
  | error e =>
    cases br with
    | single c =>
      obtain ⟨c', hc', hrep⟩ := h
      simp only [branchCalls, List.mem_singleton] at hc'
      subst hc'
      simp [buildBranch, buildLeaf_fails hrep hr] at hb
      rw [← hb]
    | mixed w p b c =>
      simp only [buildBranch] at hb
      split at hb
      · cases hb
      · cases hb; rfl

theorem getActiveLearner_some {s : String} {a : LearnerArgs} {l : LearnerObj}
    (h : getActiveLearner s a = .ok (some l)) : ∃ br, (s, br) ∈ learnerBranches ∧ buildBranch a br = .ok l := by
  unfold getActiveLearner at h
  split at h
  · cases h
  · next b hb =>
    split at h
    · cases h
    · next l' hl => cases h; exact ⟨b, lookup_mem hb, hl⟩

/-- The accepted selectors without a branch. -/
def noLearner : List String :=
  ["SW_MIX_PEAK2_EPIC", "SW_MIX_PEAK2_LL", "SW_MIX_PEAK3_EPIC", "SW_MIX_PEAK3_LL"]

/-- Selectors whose learners do not read the representative queries of the command line. -/
def repFree : List String :=
  ["UCB", "SGV_UCB", "RANDOM", "MUTUAL_INFO", "MUTUAL_INFO_PERF", "BAYES_INFO_GAIN_PROBIT", "BAYES_INFO_GAIN_999",
   "ABS_BAYES_PROBIT", "SW_BAYES_PROBIT", "SW_ACQ_SPEAR", "SW_DEC_LL"]

theorem repKnown_iff (a : LearnerArgs) : (repPtData a).isSome ↔ a.repType = "sampled" ∨ a.repType = "stable" := by
  unfold repPtData
  split
  · simp [*]
  · split <;> simp [*]

theorem keys_accepted : ∀ e ∈ learnerBranches, e.1 ∈ possibleSelectors ∧ e.1 ∉ noLearner := by decide +kernel

theorem accepted_keys : ∀ s ∈ possibleSelectors, (s ∈ noLearner ∧ learnerBranches.lookup s = none) ∨
    (s ∉ noLearner ∧ (learnerBranches.lookup s).isSome) := by decide +kernel

theorem branch_rep : ∀ e ∈ learnerBranches,
    (e.1 ∈ repFree ∧ ∀ c ∈ branchCalls e.2, c.rep = false) ∨
    (e.1 ∉ repFree ∧ (∃ c ∈ branchCalls e.2, c.rep = true) ∧
      ∀ c ∈ branchCalls e.2, c.rep = (alignOf c.kind).isSome) := by decide +kernel

/-- C81 (which learners exist): for an accepted selector and a known kind of representative points a learner is
built, except for four accepted names, for which there is none; any other name gives none. -/
theorem C81_built_partial (s : String) (a : LearnerArgs) (hrep : a.repType = "sampled" ∨ a.repType = "stable") :
    (s ∈ possibleSelectors ∧ s ∉ noLearner → ∃ l, getActiveLearner s a = .ok (some l)) ∧
    (s ∉ possibleSelectors ∨ s ∈ noLearner → getActiveLearner s a = .ok none) := by
  constructor
  · rintro ⟨h1, h2⟩
    rcases accepted_keys s h1 with h | ⟨_, h⟩
    · exact absurd h.1 h2
    · obtain ⟨b, hb⟩ := Option.isSome_iff_exists.1 h
      obtain ⟨l, hl⟩ := buildBranch_total (br := b) (.inr ((repKnown_iff a).2 hrep))
      exact ⟨l, by simp [getActiveLearner, hb, hl]⟩
  · intro h
    have : learnerBranches.lookup s = none := lookup_none fun b hb => by
      have := keys_accepted _ hb
      rcases h with h | h
      · exact h this.1
      · exact this.2 h
    simp [getActiveLearner, this]

/-- C81 (which learners exist), refuted in general: an accepted selector for which no learner is built, whatever the
other arguments. -/
theorem C81_built_counterexample (a : LearnerArgs) :
    "SW_MIX_PEAK2_LL" ∈ possibleSelectors ∧ getActiveLearner "SW_MIX_PEAK2_LL" a = .ok none := by
  refine ⟨by decide +kernel, ?_⟩
  have : learnerBranches.lookup "SW_MIX_PEAK2_LL" = none := by decide +kernel
  simp [getActiveLearner, this]

/-- C81 (an unknown kind of representative points): `UnboundLocalError` for every selector with a learner, except
those that do not read it. -/
theorem C81_unknown_rep (s : String) (a : LearnerArgs) (hrep : a.repType ≠ "sampled" ∧ a.repType ≠ "stable")
    (hs : s ∈ possibleSelectors) (hn : s ∉ noLearner) :
    (s ∉ repFree → getActiveLearner s a = .error .unboundLocal) ∧
    (s ∈ repFree → ∃ l, getActiveLearner s a = .ok (some l)) := by
  have hr : repPtData a = none := by simp [repPtData, hrep]
  rcases accepted_keys s hs with h | ⟨_, h⟩
  · exact absurd h.1 hn
  obtain ⟨b, hb⟩ := Option.isSome_iff_exists.1 h
  have hbr := branch_rep _ (lookup_mem hb)
  constructor
  · intro hf
    rcases hbr with ⟨h, _⟩ | ⟨_, h, _⟩
    · exact absurd h hf
    · simp [getActiveLearner, hb, buildBranch_fails h hr]
  · intro hf
    rcases hbr with ⟨_, h⟩ | ⟨h, _⟩
    · obtain ⟨l, hl⟩ := buildBranch_total (a := a) (br := b) (.inl h)
      exact ⟨l, by simp [getActiveLearner, hb, hl]⟩
    · exact absurd hf h

theorem branch_align : ∀ e ∈ learnerBranches,
    (∀ c ∈ branchCalls e.2, alignOf c.kind = none ∨ alignOf c.kind = namedAlign e.1) ∧
    ((namedAlign e.1).isSome → ∃ c ∈ branchCalls e.2, alignOf c.kind = namedAlign e.1) := by decide +kernel

/-- C81 (the name of the alignment function): every alignment learner in the object built for a selector uses the
alignment function named by the selector, and there is one if one is named. -/
theorem C81_alignment {s : String} {a : LearnerArgs} {l : LearnerObj} (h : getActiveLearner s a = .ok (some l)) :
    (∀ o ∈ parts l, alignOf o.kind = none ∨ alignOf o.kind = namedAlign s) ∧
    ((namedAlign s).isSome → ∃ o ∈ parts l, alignOf o.kind = namedAlign s) := by
  obtain ⟨br, hm, hb⟩ := getActiveLearner_some h
  obtain ⟨h1, h2⟩ := branch_align _ hm
  constructor
  · intro o ho
    obtain ⟨c, hc, hl⟩ := parts_from_calls hb ho
    rw [(buildLeaf_ok hl).1]
    exact h1 c hc
  · intro hs
    obtain ⟨c, hc, he⟩ := h2 hs
    obtain ⟨o, ho, hl⟩ := calls_to_parts hb hc
    exact ⟨o, ho, by rw [(buildLeaf_ok hl).1]; exact he⟩

/-- The branch composes learners. -/
def branchMixed : Branch → Bool
  | .single _ => false
  | .mixed .. => true

theorem branch_shape : ∀ e ∈ learnerBranches,
    (e.1.startsWith "SW_" = true ∧ branchMixed e.2 = true ∧ ∀ c ∈ branchCalls e.2, c.opts = false) ∨
    (e.1.startsWith "SW_" = false ∧ branchMixed e.2 = false ∧ ∀ c ∈ branchCalls e.2, c.opts = true) := by
  decide +kernel

/-- C81 (the prefix): a selector builds a learner that mixes rating and pair queries exactly when its name starts
with `SW_`. -/
theorem C81_prefix {s : String} {a : LearnerArgs} {l : LearnerObj} (h : getActiveLearner s a = .ok (some l)) :
    isMixed l = s.startsWith "SW_" := by
  obtain ⟨br, hm, hb⟩ := getActiveLearner_some h
  rcases branch_shape _ hm with ⟨h1, h2, _⟩ | ⟨h1, h2, _⟩
  · cases br with
    | single c => simp [branchMixed] at h2
    | mixed w p b c => obtain ⟨_, _, _, rfl, _⟩ := buildBranch_mixed hb; simpa [isMixed] using h1.symm
  · cases br with
    | single c => obtain ⟨_, rfl, _⟩ := buildBranch_single hb; simpa [isMixed] using h1.symm
    | mixed w p b c => simp [branchMixed] at h2

/-- C81 (options): the options `default_to_pareto` and `always_select_best` reach the learner of a selector without
prefix, the latter only if the queries are not ratings; the parts of a mixing learner, which select the candidates,
never get them; the exploration constant reaches every learner that has one. -/
theorem C81_options_partial {s : String} {a : LearnerArgs} {l : LearnerObj}
    (h : getActiveLearner s a = .ok (some l)) :
    (isMixed l = false → ∀ o ∈ parts l, o.pareto = a.pareto ∧
      (o.best = true ↔ a.cfgBest = true ∧ a.selType ≠ "rating")) ∧
    (isMixed l = true → ∀ o ∈ parts l, o.pareto = false ∧ o.best = false) ∧
    ∀ o ∈ parts l, (o.kind = .ucb ∨ o.kind = .gvUcb) → o.scalar = some a.scalar := by
  have hp := C81_prefix h
  obtain ⟨br, hm, hb⟩ := getActiveLearner_some h
  refine ⟨fun hmix o ho => ?_, fun hmix o ho => ?_, fun o ho hk => ?_⟩
  · obtain ⟨c, hc, hl⟩ := parts_from_calls hb ho
    obtain ⟨_, _, h1, h2, _⟩ := buildLeaf_ok hl
    rcases branch_shape _ hm with ⟨h3, _⟩ | ⟨_, _, h4⟩
    · rw [hmix] at hp; simp only at h3; rw [← hp] at h3; cases h3
    · rw [h1, h2, h4 c hc, alwaysBest]
      refine ⟨by simp, ?_⟩
      split <;> simp [*]
  · obtain ⟨c, hc, hl⟩ := parts_from_calls hb ho
    obtain ⟨_, _, h1, h2, _⟩ := buildLeaf_ok hl
    rcases branch_shape _ hm with ⟨_, _, h4⟩ | ⟨h3, _⟩
    · rw [h1, h2, h4 c hc]; simp
    · rw [hmix] at hp; simp only at h3; rw [← hp] at h3; cases h3
  · obtain ⟨c, hc, hl⟩ := parts_from_calls hb ho
    obtain ⟨h0, _, _, _, h1, _⟩ := buildLeaf_ok hl
    rw [h1]
    rw [h0] at hk
    rcases hk with hk | hk <;> simp [hk, leafScalar]

/-- The classes that take `alpha` or `p_abs_param`, by selector name. -/
def takesAlpha (s : String) : Bool := s.startsWith "SW_UCB_" || s.startsWith "SW_MIX_"

theorem branch_alpha : ∀ e ∈ learnerBranches, (match e.2 with
    | .mixed w _ _ _ => decide (w ∈ [MixKind.rateChoose, .setFixed, .alternating, .alignDecision, .equalChecking]) ==
        !takesAlpha e.1
    | .single _ => true) = true := by decide +kernel

/-- C81 (the trade-off): the configured `alpha` reaches exactly the mixing learners whose names start with `SW_UCB_` or
`SW_MIX_`; it is without effect for all others. The mixing learner itself is given both options. -/
theorem C81_alpha {s : String} {a : LearnerArgs} {w : MixKind} {p b : LeafObj} {c : Option LeafObj}
    {pareto best : Bool} {al : Option ℝ} (h : getActiveLearner s a = .ok (some (.mixed w p b c pareto best al))) :
    al = (if s.startsWith "SW_UCB_" || s.startsWith "SW_MIX_" then some a.alpha else none) ∧
      pareto = a.pareto ∧ (best = true ↔ a.cfgBest = true ∧ a.selType ≠ "rating") := by
  obtain ⟨br, hm, hb⟩ := getActiveLearner_some h
  cases br with
  | single c => obtain ⟨_, h', _⟩ := buildBranch_single hb; cases h'
  | mixed w' p' b' c' =>
    obtain ⟨_, _, _, h', _⟩ := buildBranch_mixed hb
    cases h'
    have := branch_alpha _ hm
    simp only at this
    refine ⟨?_, rfl, ?_⟩
    · change _ = if takesAlpha s = true then _ else _
      cases w <;> simp at this <;> simp [mixAlpha, this]
    · rw [alwaysBest]
      split <;> simp [*]

/-- C81 (options), refuted for the mixing learners: `default_to_pareto` makes no difference to any learner that
selects candidates. -/
theorem C81_options_counterexample : ∃ (s : String) (a : LearnerArgs) (l : LearnerObj), s ∈ possibleSelectors ∧
    a.pareto = true ∧ getActiveLearner s a = .ok (some l) ∧ ∀ o ∈ parts l, o.pareto = false := by
  set a : LearnerArgs := ⟨"switch", "sampled", 1, true, false, 0, "f", false⟩ with ha
  obtain ⟨l, hl⟩ := (C81_built_partial "SW_UCB_RHO" a (.inl rfl)).1 (by decide +kernel)
  refine ⟨_, a, l, by decide +kernel, rfl, hl, fun o ho => ?_⟩
  have hm : isMixed l = true := by rw [C81_prefix hl]; decide +kernel
  exact ((C81_options_partial hl).2.1 hm o ho).1

/-- C81 (representative queries): except for two selectors every alignment learner gets the representative queries
asked for. -/
theorem C81_rep_partial {s : String} {a : LearnerArgs} {l : LearnerObj} (h : getActiveLearner s a = .ok (some l))
    (hs : s ≠ "SW_ACQ_SPEAR" ∧ s ≠ "SW_DEC_LL") :
    ∀ o ∈ parts l, (alignOf o.kind).isSome → ∃ r, o.rep = some r ∧ requestedRep a r := by
  obtain ⟨br, hm, hb⟩ := getActiveLearner_some h
  intro o ho hal
  obtain ⟨c, hc, hl⟩ := parts_from_calls hb ho
  obtain ⟨h0, h1, _⟩ := buildLeaf_ok hl
  rw [h0] at hal
  have hf : c.rep = true := by
    rcases branch_rep _ hm with ⟨hfree, _⟩ | ⟨_, _, h3⟩
    · have key : ∀ e ∈ learnerBranches, e.1 ∈ repFree → e.1 ≠ "SW_ACQ_SPEAR" ∧ e.1 ≠ "SW_DEC_LL" →
          ∀ c ∈ branchCalls e.2, alignOf c.kind = none := by decide +kernel
      rw [key _ hm hfree hs c hc] at hal
      cases hal
    · rw [h3 c hc]; exact hal
  rw [leafRep, hf] at h1
  simp only [if_true] at h1
  cases hd : repPtData a with
  | none => rw [hd] at h1; cases h1
  | some d =>
    rw [hd] at h1
    injection h1 with h1
    refine ⟨_, h1.symm, rfl, fun hk => ?_, fun hk => ?_⟩
    · simp [repPtData, hk] at hd; exact hd.symm
    · simp [repPtData, hk] at hd; exact hd.symm

/-- C81 (representative queries), refuted for these two: they use the defaults of the constructors, sampled
representative queries, also when stable ones are asked for. -/
theorem C81_rep_counterexample : ∀ s ∈ ["SW_ACQ_SPEAR", "SW_DEC_LL"], ∀ a : LearnerArgs,
    ∃ l, getActiveLearner s a = .ok (some l) ∧ ∃ o ∈ parts l, ∃ r, o.rep = some r ∧ ¬ requestedRep a r := by
  intro s hs a
  have hd : ∀ t ∈ ["SW_ACQ_SPEAR", "SW_DEC_LL"], ∃ w p b co al, learnerBranches.lookup t = some (.mixed w p b co) ∧
      (∀ c ∈ branchCalls (.mixed w p b co), c.rep = false) ∧ p.kind = .acq al := by
    intro t ht
    rcases List.mem_cons.1 ht with rfl | ht
    · exact ⟨.rateChoose, ⟨.acq .spearman, false, false⟩, ⟨.absAcq .spearman, false, false⟩, none, .spearman,
        by decide +kernel, by decide +kernel, rfl⟩
    · rw [List.mem_singleton] at ht
      subst ht
      exact ⟨.alignDecision, ⟨.acq .loglikelihood, false, false⟩, ⟨.ucb, false, false⟩, none, .loglikelihood,
        by decide +kernel, by decide +kernel, rfl⟩
  obtain ⟨w, p, b, co, al, hl, hf, hk⟩ := hd s hs
  obtain ⟨l, hb⟩ := buildBranch_total (a := a) (br := .mixed w p b co) (.inl hf)
  refine ⟨l, by simp [getActiveLearner, hl, hb], ?_⟩
  obtain ⟨o, ho, hlf⟩ := calls_to_parts hb (c := p) (by simp [branchCalls])
  obtain ⟨_, h1, _⟩ := buildLeaf_ok hlf
  have hp : p.rep = false := hf p (by simp [branchCalls])
  rw [leafRep, hp, hk] at h1
  simp only [Bool.false_eq_true, if_false, defaultRep] at h1
  injection h1 with h1
  refine ⟨o, ho, _, h1.symm, ?_⟩
  rintro ⟨hm, hr, _⟩
  have := hr hm.symm
  simp at this

/-- C81 (representative queries): what these two use instead. Pair queries are scored on sampled queries with the counts 60
and 50, ratings with 10 and 20. -/
theorem C81_rep_defaults {s : String} (hs : s = "SW_ACQ_SPEAR" ∨ s = "SW_DEC_LL") {a : LearnerArgs} {l : LearnerObj}
    (h : getActiveLearner s a = .ok (some l)) :
    (∀ o ∈ parts l, ∀ al, o.kind = .acq al → o.rep = some ⟨"sampled", .counts 60 50⟩) ∧
    (∀ o ∈ parts l, ∀ al, o.kind = .absAcq al → o.rep = some ⟨"sampled", .counts 10 20⟩) := by
  obtain ⟨br, hm, hb⟩ := getActiveLearner_some h
  have key : ∀ e ∈ learnerBranches, e.1 = "SW_ACQ_SPEAR" ∨ e.1 = "SW_DEC_LL" → ∀ c ∈ branchCalls e.2, c.rep = false := by
    decide +kernel
  have hrep : ∀ o ∈ parts l, o.rep = defaultRep o.kind := by
    intro o ho
    obtain ⟨c, hc, hl⟩ := parts_from_calls hb ho
    obtain ⟨h0, h1, _⟩ := buildLeaf_ok hl
    rw [leafRep, key _ hm hs c hc] at h1
    simp only [Bool.false_eq_true, if_false] at h1
    injection h1 with h1
    rw [h0, h1]
  exact ⟨fun o ho al hk => by rw [hrep o ho, hk]; rfl, fun o ho al hk => by rw [hrep o ho, hk]; rfl⟩

/-- Non-vacuous: `SW_ACQ_SPEAR` has a part of each kind, with stable representative points asked for. -/
example : ∃ l, getActiveLearner "SW_ACQ_SPEAR" ⟨"switch", "stable", 1, true, true, 0, "f", false⟩ = .ok (some l) ∧
    (∃ o ∈ parts l, ∃ al, o.kind = .acq al) ∧ ∃ o ∈ parts l, ∃ al, o.kind = .absAcq al := by
  refine ⟨_, rfl, ?_, ?_⟩
  · exact ⟨_, .head _, .spearman, rfl⟩
  · exact ⟨_, .tail _ (.head _), .spearman, rfl⟩

/-- C81 (names with the wrong learner): a run with `MUTUAL_INFO_PERF` has the learner of `MUTUAL_INFO`, since no fake
function is passed on, and `ABS_BAYES_PROBIT` has the one of `BAYES_INFO_GAIN_PROBIT`, which does not ask for
ratings. -/
theorem C81_same_learner (a : LearnerArgs) :
    (∀ l l', getActiveLearner "MUTUAL_INFO_PERF" { a with fake := false } = .ok (some (.single l)) →
      getActiveLearner "MUTUAL_INFO" { a with fake := false } = .ok (some (.single l')) →
      l.fake = l'.fake ∧ l.pareto = l'.pareto ∧ l.best = l'.best) ∧
    getActiveLearner "ABS_BAYES_PROBIT" a = getActiveLearner "BAYES_INFO_GAIN_PROBIT" a ∧
    ∃ l, getActiveLearner "ABS_BAYES_PROBIT" a = .ok (some l) ∧ ∀ o ∈ parts l, asksRating o.kind = false := by
  have h1 : learnerBranches.lookup "MUTUAL_INFO_PERF" = some (.single ⟨.mutualInfoFake, false, true⟩) := by
    decide +kernel
  have h2 : learnerBranches.lookup "MUTUAL_INFO" = some (.single ⟨.mutualInfo, false, true⟩) := by decide +kernel
  have h3 : learnerBranches.lookup "ABS_BAYES_PROBIT" = some (.single ⟨.bayesProbit, false, true⟩) := by
    decide +kernel
  have h4 : learnerBranches.lookup "BAYES_INFO_GAIN_PROBIT" = some (.single ⟨.bayesProbit, false, true⟩) := by
    decide +kernel
  refine ⟨fun l l' e1 e2 => ?_, by simp [getActiveLearner, h3, h4], ?_⟩
  · simp [getActiveLearner, h1, h2, buildBranch, buildLeaf, leafRep] at e1 e2
    subst e1 e2
    simp
  · refine ⟨_, by simp [getActiveLearner, h3, buildBranch, buildLeaf, leafRep]; rfl, ?_⟩
    simp [parts, asksRating]

/-- The branch has the class its name says. -/
def branchNamed (s : String) : Branch → Bool
  | .single c => decide (namedLeaf s = some c.kind)
  | .mixed w p b c => decide (namedStrategy s = some w ∧ mixRoles s w p.kind b.kind (c.map (·.kind)))

theorem branch_named : ∀ e ∈ learnerBranches, e.1 ≠ "ABS_BAYES_PROBIT" → branchNamed e.1 e.2 = true := by decide +kernel

/-- The classes of a learner are those its name says. -/
def objNamed (s : String) : LearnerObj → Prop
  | .single o => namedLeaf s = some o.kind
  | .mixed w p b c _ _ _ => namedStrategy s = some w ∧ mixRoles s w p.kind b.kind (c.map (·.kind))

/-- C81 (the class): except for `ABS_BAYES_PROBIT` the learner built for a selector is of the class its name says; a mixing learner has the named strategy
and the parts that belong to it. -/
theorem C81_class_partial {s : String} {a : LearnerArgs} {l : LearnerObj} (h : getActiveLearner s a = .ok (some l))
    (hs : s ≠ "ABS_BAYES_PROBIT") : objNamed s l := by
  obtain ⟨br, hm, hb⟩ := getActiveLearner_some h
  have hn := branch_named _ hm hs
  cases br with
  | single c =>
    obtain ⟨o, rfl, ho⟩ := buildBranch_single hb
    simp only [branchNamed, decide_eq_true_eq] at hn
    simp only [objNamed, (buildLeaf_ok ho).1]
    exact hn
  | mixed w p b c =>
    obtain ⟨po, bo, co, rfl, hp, hb', hc⟩ := buildBranch_mixed hb
    simp only [branchNamed, decide_eq_true_eq] at hn
    have hco : co.map (·.kind) = c.map (·.kind) := by
      cases c with
      | none => simp [buildComp] at hc; subst hc; rfl
      | some c =>
        simp only [buildComp] at hc
        split at hc
        · cases hc
        · next o' h' => cases hc; simp [(buildLeaf_ok h').1]
    simp only [objNamed, (buildLeaf_ok hp).1, (buildLeaf_ok hb').1, hco]
    exact hn

/-- C81 (the class), refuted for `ABS_BAYES_PROBIT`: the learner for pairs is built instead of the one for ratings. -/
theorem C81_class_counterexample (a : LearnerArgs) :
    ∃ l, getActiveLearner "ABS_BAYES_PROBIT" a = .ok (some l) ∧ ¬ objNamed "ABS_BAYES_PROBIT" l := by
  have h3 : learnerBranches.lookup "ABS_BAYES_PROBIT" = some (.single ⟨.bayesProbit, false, true⟩) := by decide +kernel
  refine ⟨_, by simp [getActiveLearner, h3, buildBranch, buildLeaf, leafRep]; rfl, ?_⟩
  have : namedLeaf "ABS_BAYES_PROBIT" = some .absBayes := by decide +kernel
  simp [objNamed, this]

/-- C81 (the fake function): the class is the one the word names, and another word raises. -/
theorem C81_fake (d : String) (c : FakeClass) :
    (getFakeFunc d = .ok c ↔ (d, c) ∈ fakeNames) ∧ ((∀ e ∈ fakeNames, e.1 ≠ d) → getFakeFunc d = .error .unboundLocal) := by
  constructor
  · constructor
    · intro h
      simp only [getFakeFunc] at h
      split_ifs at h <;> (cases h; subst_vars; decide)
    · intro h
      simp only [fakeNames, List.mem_cons, Prod.mk.injEq, List.not_mem_nil, or_false] at h
      rcases h with ⟨rfl, rfl⟩ | ⟨rfl, rfl⟩ | ⟨rfl, rfl⟩ | ⟨rfl, rfl⟩ | ⟨rfl, rfl⟩ | ⟨rfl, rfl⟩ | ⟨rfl, rfl⟩ | ⟨rfl, rfl⟩ <;> rfl
  · intro h
    simp only [fakeNames, List.mem_cons, List.not_mem_nil, or_false, forall_eq_or_imp, forall_eq] at h
    simp [getFakeFunc, Ne.symm h.1, Ne.symm h.2.1, Ne.symm h.2.2.1, Ne.symm h.2.2.2.1, Ne.symm h.2.2.2.2.1, Ne.symm h.2.2.2.2.2.1,
      Ne.symm h.2.2.2.2.2.2.1, Ne.symm h.2.2.2.2.2.2.2]

/-- A mixing learner. -/
example : namedStrategy "SW_MIX_PEAK2_SPEAR" = some .mixPeak2 ∧ namedStrategy "SW_FIXED_RHO" = some .setFixed ∧ namedLeaf "UCB" = some .ucb ∧
    mixRoles "SW_UCB_EPIC" .mixedComparison (.acq .epic) .ucb (some (.absAcq .epic)) := by decide +kernel

/-! ## Runs -/

/-- Accepted selectors whose first query selection always raises. -/
def selectRaises : List String := ["SW_BAYES_PROBIT", "SW_DEC_RHO", "SW_DEC_EPIC", "SW_DEC_LL", "SW_DEC_SPEAR"]

theorem stopOf_ok {α : Type*} {x : Except PyErr α} {y : α} : stopOf x = .ok y ↔ x = .ok y := by
  cases x <;> simp [stopOf]

/-- The first selection of the object of this branch raises. -/
def branchRaises : Branch → Bool
  | .single _ => false
  | .mixed w p _ _ => decide (w = .alignDecision ∨ (w = .rateChoose ∧ p.rep = false ∧ defaultRep p.kind = none))

theorem branch_select : ∀ e ∈ learnerBranches, (e.1 ∈ selectRaises ↔ branchRaises e.2 = true) := by decide +kernel

/-- The first selection of the built learner raises exactly for the selectors above. -/
theorem firstSelect_iff {ρ : Type*} {s : String} {a : LearnerArgs} {l : LearnerObj}
    (h : getActiveLearner s a = .ok (some l)) (out : Except PyErr ρ) (x : ρ) :
    firstSelect l out = .ok x ↔ s ∉ selectRaises ∧ out = .ok x := by
  obtain ⟨br, hm, hb⟩ := getActiveLearner_some h
  have hs := branch_select _ hm
  cases br with
  | single c =>
    obtain ⟨o, rfl, _⟩ := buildBranch_single hb
    simp only [branchRaises] at hs
    simp [firstSelect, hs]
  | mixed w p b c =>
    obtain ⟨po, bo, co, rfl, hp, _⟩ := buildBranch_mixed hb
    simp only [branchRaises, decide_eq_true_eq] at hs
    rw [hs]
    have hrep : po.rep.isSome = (p.rep || (defaultRep p.kind).isSome) := by
      obtain ⟨_, h1, _⟩ := buildLeaf_ok hp
      unfold leafRep at h1
      cases hr : p.rep with
      | true =>
        rw [hr] at h1
        simp only [if_true] at h1
        split at h1
        · cases h1
        · injection h1 with h1; rw [← h1]; rfl
      | false =>
        rw [hr] at h1
        simp only [Bool.false_eq_true, if_false] at h1
        injection h1 with h1
        rw [h1]; rfl
    cases w <;> simp [firstSelect]
    · rw [hrep]
      cases hr : p.rep with
      | true => simp
      | false =>
        cases hd : defaultRep p.kind <;> simp
    · cases out <;> simp

/-- C81 (whole runs): a run has a result exactly when its arguments are accepted, the user is `human_choice`, the
queries are not rankings, the fake function is not `min_log`, the selector is none of the nine that have no learner or whose
first selection raises, a GP model gets a known hyper-parameter setting, the kind of representative points is known or not used, and nothing else
raises. -/
theorem C81_run {ρ : Type*} (r : RunArgs) (a : LearnerArgs) (o : RunOutcomes ρ) (x : ρ) :
    runExperiment r a o = .ok x ↔
      (r.selector ∈ possibleSelectors ∧
        r.fakeFunc ∈ ["linear", "squared", "logistic", "sin_exp", "max", "min", "squared_min_max", "min_log"] ∧
        r.model ∈ ["gp", "linear"] ∧ r.selType ∈ ["choose1", "ranking", "rating", "switch"] ∧
        (r.defPareto = "true" ∨ r.defPareto = "false")) ∧
      r.user = "human_choice" ∧ r.selType ≠ "ranking" ∧ r.fakeFunc ≠ "min_log" ∧ r.selector ∉ noLearner ∧ r.selector ∉ selectRaises ∧
      (r.model = "gp" → r.hyper = "no" ∨ r.hyper = "hyper") ∧
      (r.repType = "sampled" ∨ r.repType = "stable" ∨ r.selector ∈ repFree) ∧
      o.calib = .ok () ∧ o.eval0 = .ok () ∧ o.record0 = .ok () ∧ o.select0 = .ok () ∧ o.rest = .ok x := by
  change _ ↔ (r.selector ∈ possibleSelectors ∧ r.fakeFunc ∈ possibleFakeFuncs ∧ r.model ∈ possibleModels ∧
    r.selType ∈ possibleSelTypes ∧ (r.defPareto = "true" ∨ r.defPareto = "false")) ∧ _
  have hmain : ∀ p, mainChecks r = .ok p ↔ (r.selector ∈ possibleSelectors ∧ r.fakeFunc ∈ possibleFakeFuncs ∧
      r.model ∈ possibleModels ∧ r.selType ∈ possibleSelTypes ∧
      ((r.defPareto = "true" ∧ p = true) ∨ (r.defPareto = "false" ∧ p = false))) := by
    intro p
    unfold mainChecks
    by_cases h1 : r.selector ∈ possibleSelectors
    · by_cases h2 : r.fakeFunc ∈ possibleFakeFuncs
      · by_cases h3 : r.model ∈ possibleModels
        · by_cases h4 : r.selType ∈ possibleSelTypes
          · by_cases h5 : r.defPareto = "true"
            · cases p <;> simp [h1, h2, h3, h4, h5]
            · by_cases h6 : r.defPareto = "false"
              · cases p <;> simp [h1, h2, h3, h4, h6]
              · cases p <;> simp [h1, h2, h3, h4, h5, h6]
          · simp [h1, h2, h3, h4]
        · simp [h1, h2, h3]
      · simp [h1, h2]
    · simp [h1]
  have hfake : r.fakeFunc ∈ possibleFakeFuncs → ∃ f, getFakeFunc r.fakeFunc = .ok f := by
    have : ∀ s ∈ possibleFakeFuncs, ∃ f, getFakeFunc s = .ok f := by
      intro s hs
      simp only [possibleFakeFuncs, List.mem_cons, List.not_mem_nil, or_false] at hs
      rcases hs with rfl | rfl | rfl | rfl | rfl | rfl | rfl | rfl <;> exact ⟨_, rfl⟩
    exact this _
  have hrec : ∀ f, getFakeFunc r.fakeFunc = .ok f →
      (recordCall f o.record0 = .ok () ↔ r.fakeFunc ≠ "min_log" ∧ o.record0 = .ok ()) := by
    intro f hf
    have hf' := ((C81_fake r.fakeFunc f).1).1 hf
    simp only [fakeNames, List.mem_cons, Prod.mk.injEq, List.not_mem_nil, or_false] at hf'
    rcases hf' with ⟨h, rfl⟩ | ⟨h, rfl⟩ | ⟨h, rfl⟩ | ⟨h, rfl⟩ | ⟨h, rfl⟩ | ⟨h, rfl⟩ | ⟨h, rfl⟩ | ⟨h, rfl⟩ <;>
      simp [recordCall, h]
  have huser : ∀ u, getSynthUser r.user = .ok u → learnBetaCall u o.calib = .ok () →
      r.user = "human_choice" ∧ o.calib = .ok () := by
    intro u hu hl
    unfold getSynthUser at hu
    split at hu
    · cases hu; simp [learnBetaCall] at hl
    · split at hu
      · next h => cases hu; exact ⟨h, hl⟩
      · cases hu
  set args : Bool → LearnerArgs :=
    fun p => { a with selType := r.selType, repType := r.repType, pareto := p, fake := false } with hargs
  have hset : ∀ p objs, runSetup r p a o.calib = .ok objs ↔
      getActiveLearner r.selector (args p) = .ok objs.learner ∧ getModel r.model r.hyper = .ok () ∧
      getFakeFunc r.fakeFunc = .ok objs.fake ∧ getSynthUser r.user = .ok objs.user ∧
      learnBetaCall objs.user o.calib = .ok () := by
    intro p objs
    have hun : { a with selType := r.selType, repType := r.repType, pareto := p, fake := false } = args p := rfl
    unfold runSetup
    rw [hun]
    cases h1 : getActiveLearner r.selector (args p) with
    | error e => simp [stopOf]
    | ok l =>
      cases h2 : getModel r.model r.hyper with
      | error e => simp [stopOf]
      | ok _ =>
        cases h3 : getFakeFunc r.fakeFunc with
        | error e => simp [stopOf]
        | ok f =>
          cases h4 : getSynthUser r.user with
          | error e => simp [stopOf]
          | ok u =>
            cases h5 : learnBetaCall u o.calib with
            | error e =>
              simp only [stopOf, h5]
              constructor
              · intro h; cases h
              · rintro ⟨_, _, _, hu, hl⟩
                injection hu with hu
                rw [← hu, h5] at hl
                cases hl
            | ok _ =>
              simp only [stopOf, h5]
              constructor
              · intro h; cases h; simp [h5]
              · rintro ⟨hl, _, hf, hu, _⟩
                injection hl with hl
                injection hf with hf
                injection hu with hu
                subst hl hf hu
                rfl
  have hmodel : r.model ∈ possibleModels →
      (getModel r.model r.hyper = .ok () ↔ (r.model = "gp" → r.hyper = "no" ∨ r.hyper = "hyper")) := by
    intro hm
    simp only [possibleModels, List.mem_cons, List.not_mem_nil, or_false] at hm
    rcases hm with hm | hm
    · rw [hm]
      unfold getModel
      by_cases h1 : r.hyper = "no"
      · simp [h1]
      · by_cases h2 : r.hyper = "hyper" <;> simp [h1, h2]
    · rw [hm]
      simp [getModel]
  have hlearn : ∀ p, r.selector ∈ possibleSelectors →
      ((∃ l, getActiveLearner r.selector (args p) = .ok (some l)) ↔
        r.selector ∉ noLearner ∧ (r.repType = "sampled" ∨ r.repType = "stable" ∨ r.selector ∈ repFree)) := by
    intro p hs
    by_cases hn : r.selector ∈ noLearner
    · have : getActiveLearner r.selector (args p) = .ok none := by
        have hk : learnerBranches.lookup r.selector = none :=
          lookup_none fun b hb => (keys_accepted _ hb).2 hn
        simp [getActiveLearner, hk]
      simp [this, hn]
    · by_cases hr : r.repType = "sampled" ∨ r.repType = "stable"
      · have := (C81_built_partial r.selector (args p) hr).1 ⟨hs, hn⟩
        simp only [this, hn, true_iff, not_false_eq_true, true_and]
        exact hr.imp id .inl
      · push Not at hr
        have := C81_unknown_rep r.selector (args p) hr hs hn
        by_cases hf : r.selector ∈ repFree
        · simp only [this.2 hf, hn, true_iff, not_false_eq_true, true_and]
          exact .inr (.inr hf)
        · simp [this.1 hf, hr, hf]
  constructor
  · intro h
    unfold runExperiment at h
    cases hm : mainChecks r with
    | error e => rw [hm] at h; cases h
    | ok p =>
      rw [hm] at h
      simp only at h
      have hm' := (hmain p).1 hm
      cases hs : runSetup r p a o.calib with
      | error e => rw [hs] at h; cases h
      | ok objs =>
        rw [hs] at h
        simp only at h
        obtain ⟨hl, hmo, hf, hu, hb⟩ := (hset p objs).1 hs
        obtain ⟨hu1, hu2⟩ := huser _ hu hb
        cases hle : objs.learner with
        | none => rw [hle] at h; simp [evalCall, stopOf] at h
        | some l =>
          rw [hle] at h
          rw [hle] at hl
          simp only [evalCall] at h
          cases he : o.eval0 with
          | error e => rw [he] at h; simp [stopOf] at h
          | ok _ =>
            rw [he] at h
            simp only [stopOf] at h
            cases hrc : recordCall objs.fake o.record0 with
            | error e => rw [hrc] at h; cases h
            | ok z =>
              rw [hrc] at h
              simp only at h
              obtain ⟨hml, hr0⟩ := (hrec _ hf).1 hrc
              cases hfs : firstSelect l o.select0 with
              | error e => rw [hfs] at h; cases h
              | ok y =>
                rw [hfs] at h
                simp only at h
                obtain ⟨h1, h2⟩ := (firstSelect_iff hl o.select0 y).1 hfs
                have hrank : r.selType ≠ "ranking" := by
                  intro hr
                  simp [hr, hu1] at h
                rw [if_neg (by simp [hrank])] at h
                have hrest := stopOf_ok.1 h
                obtain ⟨hn, hrep⟩ := (hlearn p hm'.1).1 ⟨l, hl⟩
                exact ⟨⟨hm'.1, hm'.2.1, hm'.2.2.1, hm'.2.2.2.1, hm'.2.2.2.2.imp And.left And.left⟩, hu1, hrank, hml, hn, h1,
                  (hmodel hm'.2.2.1).1 hmo, hrep, hu2, rfl, hr0, h2, hrest⟩
  · rintro ⟨⟨h1, h2, h3, h4, h5⟩, hu, hr, hml, hn, hsr, hmo, hrep, hc, he, hr0, hs, hrest⟩
    obtain ⟨p, hp⟩ : ∃ p, mainChecks r = .ok p := by
      rcases h5 with h5 | h5
      · exact ⟨true, (hmain true).2 ⟨h1, h2, h3, h4, .inl ⟨h5, rfl⟩⟩⟩
      · exact ⟨false, (hmain false).2 ⟨h1, h2, h3, h4, .inr ⟨h5, rfl⟩⟩⟩
    obtain ⟨l, hl⟩ := (hlearn p h1).2 ⟨hn, hrep⟩
    obtain ⟨f, hf⟩ := hfake h2
    have hset' : runSetup r p a o.calib = .ok ⟨some l, .humanChoice2, f⟩ :=
      (hset p _).2 ⟨hl, (hmodel h3).2 hmo, hf, by simp [getSynthUser, hu], by simp [learnBetaCall, hc]⟩
    have hfs := (firstSelect_iff hl o.select0 ()).2 ⟨hsr, hs⟩
    have hrc := (hrec f hf).2 ⟨hml, hr0⟩
    simp [runExperiment, hp, hset', evalCall, he, hrc, stopOf, hfs, hr, hrest]

/-- C81 (accepted selectors without a learner): the run ends with `AttributeError` at the first evaluation. -/
theorem C81_no_learner_raises {ρ : Type*} (r : RunArgs) (a : LearnerArgs) (o : RunOutcomes ρ)
    (hsel : r.selector ∈ possibleSelectors) (hno : r.selector ∈ noLearner)
    (hf : r.fakeFunc ∈ ["linear", "squared", "logistic", "sin_exp", "max", "min", "squared_min_max", "min_log"])
    (hm : r.model ∈ ["gp", "linear"]) (ht : r.selType ∈ ["choose1", "ranking", "rating", "switch"])
    (hp : r.defPareto = "true" ∨ r.defPareto = "false") (hu : r.user = "human_choice")
    (hh : r.hyper = "no" ∨ r.hyper = "hyper") (hc : o.calib = .ok ()) :
    runExperiment r a o = .error (.err .attributeError) := by
  obtain ⟨p, hmain⟩ : ∃ p, mainChecks r = .ok p := by
    have hf' : r.fakeFunc ∈ possibleFakeFuncs := hf
    have hm' : r.model ∈ possibleModels := hm
    have ht' : r.selType ∈ possibleSelTypes := ht
    unfold mainChecks
    rcases hp with hp | hp
    · exact ⟨true, by simp [hsel, hf', hm', ht', hp]⟩
    · exact ⟨false, by simp [hsel, hf', hm', ht', hp]⟩
  have hl : ∀ b, getActiveLearner r.selector b = .ok none := by
    intro b
    have hk : learnerBranches.lookup r.selector = none :=
      lookup_none fun b hb => (keys_accepted _ hb).2 hno
    simp [getActiveLearner, hk]
  obtain ⟨f, hfake⟩ : ∃ f, getFakeFunc r.fakeFunc = .ok f := by
    simp only [List.mem_cons, List.not_mem_nil, or_false] at hf
    rcases hf with h | h | h | h | h | h | h | h <;> rw [h] <;> exact ⟨_, rfl⟩
  have hmodel : getModel r.model r.hyper = .ok () := by
    simp only [List.mem_cons, List.not_mem_nil, or_false] at hm
    rcases hm with h | h <;> rcases hh with h' | h' <;> rw [h, h'] <;> rfl
  have huser : getSynthUser r.user = .ok .humanChoice2 := by rw [hu]; rfl
  simp [runExperiment, hmain, runSetup, hl, hmodel, hfake, huser, learnBetaCall, hc, stopOf, evalCall]

/-- The hypotheses of `C81_no_learner_raises` can be met. -/
example : ∃ s, s ∈ possibleSelectors ∧ s ∈ noLearner := by decide +kernel

/-- C81 (documented options that cannot work): no run with ranking queries, with the perfect user or with the fake function
`min_log` has a result. -/
theorem C81_never {ρ : Type*} (r : RunArgs) (a : LearnerArgs) (o : RunOutcomes ρ)
    (h : r.selType = "ranking" ∨ r.user = "perfect" ∨ r.fakeFunc = "min_log") : ∃ s, runExperiment r a o = .error s := by
  cases he : runExperiment r a o with
  | error s => exact ⟨s, rfl⟩
  | ok x =>
    obtain ⟨_, hu, hr, hml, _⟩ := (C81_run r a o x).1 he
    rcases h with h | h | h
    · exact absurd h hr
    · rw [h] at hu; simp at hu
    · exact absurd h hml

/-- C81 (the fake function `min_log`): the run builds a `FakeMinLog`, evaluates the untrained model and then ends with
`AttributeError`, before any training. -/
theorem C81_min_log_raises {ρ : Type*} (r : RunArgs) (a : LearnerArgs) (o : RunOutcomes ρ) (hf : r.fakeFunc = "min_log")
    (hsel : r.selector ∈ possibleSelectors) (hno : r.selector ∉ noLearner)
    (hrep : r.repType = "sampled" ∨ r.repType = "stable")
    (hm : r.model ∈ ["gp", "linear"]) (ht : r.selType ∈ ["choose1", "ranking", "rating", "switch"])
    (hp : r.defPareto = "true" ∨ r.defPareto = "false") (hu : r.user = "human_choice")
    (hh : r.hyper = "no" ∨ r.hyper = "hyper") (hc : o.calib = .ok ()) (he : o.eval0 = .ok ()) :
    runExperiment r a o = .error (.err .attributeError) := by
  obtain ⟨p, hmain⟩ : ∃ p, mainChecks r = .ok p := by
    have hf' : r.fakeFunc ∈ possibleFakeFuncs := by rw [hf]; decide +kernel
    have hm' : r.model ∈ possibleModels := hm
    have ht' : r.selType ∈ possibleSelTypes := ht
    unfold mainChecks
    rcases hp with hp | hp
    · exact ⟨true, by simp [hsel, hf', hm', ht', hp]⟩
    · exact ⟨false, by simp [hsel, hf', hm', ht', hp]⟩
  obtain ⟨l, hl⟩ := (C81_built_partial r.selector
    { a with selType := r.selType, repType := r.repType, pareto := p, fake := false } hrep).1 ⟨hsel, hno⟩
  have hfake : getFakeFunc r.fakeFunc = .ok .minLog := by rw [hf]; rfl
  have hmodel : getModel r.model r.hyper = .ok () := by
    simp only [List.mem_cons, List.not_mem_nil, or_false] at hm
    rcases hm with h | h <;> rcases hh with h' | h' <;> rw [h, h'] <;> rfl
  have huser : getSynthUser r.user = .ok .humanChoice2 := by rw [hu]; rfl
  simp [runExperiment, hmain, runSetup, hl, hmodel, hfake, huser, learnBetaCall, hc, he, stopOf, evalCall, recordCall]

/-- C81 (which exceptions): an unknown model description, the perfect user and a `RateChooseLearner` around a learner without
samples give `AttributeError`; `AlignmentDecision` gives `UnboundLocalError` after everything else has worked. -/
theorem C81_exceptions {ρ : Type*} (r : RunArgs) (a : LearnerArgs) (o : RunOutcomes ρ) :
    (∀ desc hyper, desc ≠ "gp" → desc ≠ "linear" → getModel desc hyper = .error (.err .attributeError)) ∧
    (r.user = "perfect" → ∀ pareto l f, getActiveLearner r.selector
        { a with selType := r.selType, repType := r.repType, pareto := pareto, fake := false } = .ok l →
      getModel r.model r.hyper = .ok () → getFakeFunc r.fakeFunc = .ok f → mainChecks r = .ok pareto →
      runExperiment r a o = .error (.err .attributeError)) ∧
    (∀ s b w p q c d e g, getActiveLearner s b = .ok (some (.mixed w p q c d e g)) → s ∈ selectRaises → ∀ x : ρ,
      firstSelect (.mixed w p q c d e g) (.ok x) = .error (match w with | .rateChoose => .attributeError | _ => .unboundLocal)) := by
  refine ⟨fun desc hyper h1 h2 => by simp [getModel, h1, h2], fun hu pareto l f hl hm hf hc => ?_,
    fun s b w p q c d e g hl hs x => ?_⟩
  · have : getSynthUser r.user = .ok .perfect := by rw [hu]; rfl
    simp only [runExperiment, hc, runSetup, hl, hm, hf, this, stopOf, learnBetaCall]
  · have hne : ∀ y, firstSelect (.mixed w p q c d e g) (.ok x) ≠ .ok y := fun y hy =>
      ((firstSelect_iff hl (.ok x) y).1 hy).1 hs
    cases w with
    | rateChoose =>
      simp only [firstSelect] at hne ⊢
      split at hne
      · exact absurd rfl (hne x)
      · next hp => rw [if_neg hp]
    | alignDecision => rfl
    | _ => exact absurd rfl (hne x)

/-- The hypotheses of the last part can be met. -/
example : ∃ s b l, getActiveLearner s b = .ok (some l) ∧ s ∈ selectRaises ∧ isMixed l = true := by
  obtain ⟨l, hl⟩ := (C81_built_partial "SW_DEC_SPEAR" ⟨"switch", "stable", 1, true, true, 0, "f", false⟩
    (.inr rfl)).1 (by decide +kernel)
  exact ⟨_, _, l, hl, by decide +kernel, by rw [C81_prefix hl]; decide +kernel⟩

/-- The default arguments give a run. -/
example : runExperiment (ρ := Nat) ⟨"SGV_UCB", "choose1", "stable", "gp", "linear", "human_choice", "hyper", "false"⟩
    ⟨"", "", 1, false, false, 1 / 2, "comparision_pts.npy", false⟩ ⟨.ok (), .ok (), .ok (), .ok (), .ok 7⟩ = .ok 7 :=
  (C81_run _ _ _ _).2 ⟨by decide +kernel, rfl, by decide +kernel, by decide +kernel, by decide +kernel, by decide +kernel,
    fun _ => .inr rfl, .inr (.inl rfl), rfl, rfl, rfl, rfl, rfl⟩

/-- Selectors of every kind. -/
example : ∃ l, getActiveLearner "SW_MIX_DEC_SPEAR" ⟨"switch", "stable", 1, true, true, 0, "f", false⟩ = .ok (some l) ∧
    isMixed l = true ∧ namedAlign "SW_MIX_DEC_SPEAR" = some .spearman := by
  obtain ⟨l, hl⟩ := (C81_built_partial "SW_MIX_DEC_SPEAR" ⟨"switch", "stable", 1, true, true, 0, "f", false⟩
    (.inr rfl)).1 (by decide +kernel)
  exact ⟨l, hl, by rw [C81_prefix hl]; decide +kernel, by decide +kernel⟩

end Lop.Props
