import Verif.Spec.Mixed
import Mathlib.Analysis.SpecialFunctions.Exp
import Mathlib.MeasureTheory.Measure.Lebesgue.Basic
import Mathlib.Tactic.Linarith
import Mathlib.Tactic.NormNum
import Mathlib.Tactic.FieldSimp
import Mathlib.Tactic.Positivity

/-! # C50–C53: learners mixing rating and pair queries -/

namespace Lop.Props

open Lop Lop.Spec Filter

variable {α : Type*}

/-! ## C50: schedules -/

theorem mixRun_count {sel : Nat → SubSel α → Nat × Except PyErr α}
    (hok : ∀ n p a, (sel n ⟨.ok p, .ok a⟩).1 = n + 1)
    (herr : ∀ n s, returnedSel (.select s) = false → (sel n s).1 = n) (ops : List (MixOp α)) :
    mixRun sel ops = selectionsMade ops := by
  induction ops using List.reverseRecOn with
  | nil => rfl
  | append_singleton l o ih =>
    rw [mixRun, List.foldl_append]
    simp only [List.foldl_cons, List.foldl_nil]
    rw [← mixRun, ih, selectionsMade, selectionsMade, List.reverse_append]
    simp only [List.reverse_cons, List.reverse_nil, List.nil_append, List.singleton_append,
      List.takeWhile_cons]
    cases o with
    | setModel => simp [mixStep, isSetModel]
    | select s =>
      simp only [isSetModel, Bool.not_false, if_true, mixStep, List.filter_cons]
      cases hr : returnedSel (.select s) with
      | false => simp [herr _ _ hr]
      | true =>
        obtain ⟨sp, sa⟩ := s
        cases sp <;> cases sa <;> simp_all [returnedSel]

/-- C50: after any history of calls, `MixedComparisionSetFixed` asks the rating query in the first 8
selections since `set_model` and the pair query from then on. -/
theorem C50_set_fixed (ops : List (MixOp α)) (p a : α) :
    (setFixedSelect (mixRun setFixedSelect ops) ⟨.ok p, .ok a⟩).2 =
      .ok (if selectionsMade ops < 8 then a else p) := by
  rw [mixRun_count (fun n p a => rfl) (fun n s h => by
    obtain ⟨sp, sa⟩ := s
    cases sp <;> cases sa <;> simp_all [returnedSel, setFixedSelect])]
  simp only [setFixedSelect]
  by_cases h : selectionsMade ops < 8
  · rw [if_pos h, if_neg (by omega)]
  · rw [if_neg h, if_pos (by omega)]

/-- C50: after any history of calls, `MixedAlternating` alternates, starting with a pair after
`set_model`. -/
theorem C50_alternating (ops : List (MixOp α)) (p a : α) :
    (alternatingSelect (mixRun alternatingSelect ops) ⟨.ok p, .ok a⟩).2 =
      .ok (if Even (selectionsMade ops) then p else a) := by
  rw [mixRun_count (fun n p a => rfl) (fun n s h => by
    obtain ⟨sp, sa⟩ := s
    cases sp <;> cases sa <;> simp_all [returnedSel, alternatingSelect])]
  simp only [alternatingSelect, Nat.even_iff]

/-- C50: a selection in which a sub-learner raises re-raises and does not advance either schedule. -/
theorem C50_errors (n : Nat) (s : SubSel α) (h : returnedSel (.select s) = false) :
    ∃ e, setFixedSelect n s = (n, .error e) ∧ alternatingSelect n s = (n, .error e) := by
  obtain ⟨sp, sa⟩ := s
  cases sp with
  | error e => exact ⟨e, rfl, rfl⟩
  | ok p => cases sa with
    | error e => exact ⟨e, rfl, rfl⟩
    | ok a => simp [returnedSel] at h

example : selectionsMade [MixOp.select ⟨.ok 'p', .ok 'a'⟩, .setModel, .select ⟨.ok 'p', .ok 'a'⟩,
    .select ⟨.error .valueError, .ok 'a'⟩, .select ⟨.ok 'p', .ok 'a'⟩] = 2 := by decide

theorem md_state_le (prob : Nat → ℝ) (ops : List (MDOp α)) :
    (mdRun prob ops).state ≤ 3 ∧
      ((mdRun prob ops).state = 3 → mdDecides (mdRun prob ops).calls) := by
  induction ops using List.reverseRecOn with
  | nil => simp [mdRun]
  | append_singleton l o ih =>
    rw [mdRun, List.foldl_append]
    simp only [List.foldl_cons, List.foldl_nil]
    rw [← mdRun]
    generalize mdRun prob l = st at ih
    cases o with
    | setModel => simp [mdStep]
    | select i =>
      obtain ⟨draw, ab, pr, pr2, me⟩ := i
      obtain ⟨n, s⟩ := st
      simp only at ih
      have hs : (if n = 5 ∨ n = 10 ∨ n = 15 then 3 else s) ≤ 3 := by split <;> omega
      have hd : (if n = 5 ∨ n = 10 ∨ n = 15 then 3 else s) = 3 → mdDecides n := by
        split
        · intro _; assumption
        · exact ih.2
      simp only [mdStep, mdSelect]
      generalize (if n = 5 ∨ n = 10 ∨ n = 15 then 3 else s) = s' at hs hd
      repeat' split
      all_goals first
        | exact ⟨hs, hd⟩
        | exact ⟨by simp, by simp⟩
        | skip

/-- C50: `MixedDecision` re-decides its state only when 5, 10 or 15 selections have been made since
`set_model`; every other call leaves the state alone. -/
theorem C50_decision_points (prob : Nat → ℝ) (ops : List (MDOp α)) (i : MDIn α)
    (h : ¬ mdDecides (mdRun prob ops).calls) :
    (mdSelect prob (mdRun prob ops) i).1.state = (mdRun prob ops).state := by
  obtain ⟨hle, h3⟩ := md_state_le prob ops
  generalize mdRun prob ops = st at h hle h3
  have hne : st.state ≠ 3 := fun e => h (h3 e)
  obtain ⟨draw, ab, pr, pr2, me⟩ := i
  obtain ⟨n, s⟩ := st
  simp only at h hle hne
  have h' : ¬ (n = 5 ∨ n = 10 ∨ n = 15) := h
  simp only [mdSelect, if_neg h']
  have hcase : s = 0 ∨ s = 1 ∨ s = 2 := by omega
  rcases hcase with rfl | rfl | rfl
  all_goals
    simp only [if_true, one_ne_zero, if_false, OfNat.ofNat_ne_zero, OfNat.ofNat_ne_one]
    repeat' split
    all_goals rfl

/-- C50: once 16 selections have been made the state never changes again until `set_model`. -/
theorem C50_decision_frozen (prob : Nat → ℝ) (ops : List (MDOp α)) (later : List (MDIn α))
    (h : 16 ≤ (mdRun prob ops).calls) :
    (mdRun prob (ops ++ later.map .select)).state = (mdRun prob ops).state ∧
      16 ≤ (mdRun prob (ops ++ later.map .select)).calls := by
  induction later using List.reverseRecOn with
  | nil => simpa using h
  | append_singleton l i ih =>
    have e : mdRun prob (ops ++ (l ++ [i]).map .select)
        = (mdSelect prob (mdRun prob (ops ++ l.map .select)) i).1 := by
      rw [List.map_append, ← List.append_assoc, mdRun, List.foldl_append]
      rfl
    have hnd : ¬ mdDecides (mdRun prob (ops ++ l.map .select)).calls := by
      unfold mdDecides; omega
    rw [e]
    refine ⟨(C50_decision_points prob _ i hnd).trans ih.1, le_trans ih.2 ?_⟩
    generalize mdRun prob (ops ++ l.map .select) = st
    simp only [mdSelect]
    repeat' split
    all_goals simp

/-- C50: the counter of `MixedDecision` counts the selections which returned. -/
theorem C50_decision_counts (prob : Nat → ℝ) (st : MDState) (i : MDIn α) :
    (mdSelect prob st i).1.calls =
      st.calls + (match (mdSelect prob st i).2 with | .ok _ => 1 | .error _ => 0) := by
  obtain ⟨draw, ab, pr, pr2, me⟩ := i
  obtain ⟨n, s⟩ := st
  simp only [mdSelect]
  repeat' split
  all_goals simp_all

theorem md_all_ok (prob : Nat → ℝ) (st : MDState) (u : ℝ) (a p p2 : α) (m : ℝ × ℝ) :
    (mdSelect prob st ⟨u, .ok a, .ok p, .ok p2, .ok m⟩).1.calls = st.calls + 1 := by
  simp only [mdSelect]
  repeat' split
  all_goals simp_all

/-- The hypothesis of `C50_decision_frozen` is met after 16 selections. -/
example (prob : Nat → ℝ) (u : ℝ) (a p : α) : (mdRun prob ((List.range 16).map fun _ =>
    MDOp.select ⟨u, .ok a, .ok p, .ok p, .ok (1, 2)⟩)).calls = 16 := by
  have h : ∀ n : Nat, (mdRun prob ((List.range n).map fun _ =>
      MDOp.select ⟨u, .ok a, .ok p, .ok p, .ok (1, 2)⟩)).calls = n := by
    intro n
    induction n with
    | zero => rfl
    | succ n ih =>
      rw [List.range_succ, List.map_append, mdRun, List.foldl_append, ← mdRun]
      simp only [List.map_cons, List.map_nil, List.foldl_cons, List.foldl_nil, mdStep, md_all_ok, ih]
  exact h 16

theorem ratioLarge_iff {p a : ℝ} (hp : 0 < p) (ha : 0 < a) :
    ratioLarge p a ↔ 2 * a < p ∨ 2 * p < a := by
  unfold ratioLarge
  rw [if_neg hp.ne', if_neg ha.ne', gt_iff_lt, lt_max_iff, lt_div_iff₀ ha, lt_div_iff₀ hp]

/-- C50: after `set_model` the object behaves like a new one, whatever was selected before. -/
theorem C50_decision_set_model (prob : Nat → ℝ) (ops ops' : List (MDOp α)) :
    mdRun prob (ops ++ .setModel :: ops') = mdRun prob ops' := by
  simp only [mdRun, List.foldl_append, List.foldl_cons, mdStep]

/-- C50: at a decision point, with positive metrics, the state becomes "pairs" when the pair metric is
more than twice the rating metric, "ratings" in the opposite case, and "mixed" otherwise; in the first
two cases the query of the winning type is returned. -/
theorem C50_decision_rule (prob : Nat → ℝ) (st : MDState) (hd : mdDecides st.calls) (draw : ℝ)
    (p p2 a : α) (mp ma : ℝ) (hp : 0 < mp) (ha : 0 < ma) :
    let r := mdSelect prob st ⟨draw, .ok a, .ok p, .ok p2, .ok (mp, ma)⟩
    (2 * ma < mp → r = (⟨st.calls + 1, 2⟩, .ok (.pair, p))) ∧
    (2 * mp < ma → r = (⟨st.calls + 1, 1⟩, .ok (.abs, a))) ∧
    (mp ≤ 2 * ma → ma ≤ 2 * mp → r = (⟨st.calls + 1, 0⟩,
      .ok (if draw ≤ prob st.calls then (.abs, a) else (.pair, p2)))) := by
  have h3 : (if st.calls = 5 ∨ st.calls = 10 ∨ st.calls = 15 then 3 else st.state) = 3 := if_pos hd
  have hr := ratioLarge_iff hp ha
  refine ⟨fun h => ?_, fun h => ?_, fun h1 h2 => ?_⟩
  · simp only [mdSelect, h3]
    simp only [OfNat.ofNat_ne_zero, OfNat.ofNat_ne_one, if_false, Nat.reduceEqDiff]
    rw [if_pos (hr.2 (.inl h)), if_pos (by linarith)]
  · simp only [mdSelect, h3]
    simp only [OfNat.ofNat_ne_zero, OfNat.ofNat_ne_one, if_false, Nat.reduceEqDiff]
    rw [if_pos (hr.2 (.inr h)), if_neg (by linarith)]
  · have hn : ¬ ratioLarge mp ma := by
      rw [hr]
      rintro (h | h) <;> linarith
    simp only [mdSelect, h3]
    simp only [OfNat.ofNat_ne_zero, OfNat.ofNat_ne_one, if_false, Nat.reduceEqDiff]
    rw [if_neg hn]
    unfold drawPick
    by_cases hdr : draw ≤ prob st.calls <;> simp [hdr]

/-- C50, metrics that are zero: one vanishing metric decides for the other type (numpy's `inf` exceeds 2), two vanishing
metrics leave the decision open (numpy's `nan` does not). -/
theorem C50_decision_zero (prob : Nat → ℝ) (st : MDState) (hd : mdDecides st.calls) (draw : ℝ)
    (p p2 a : α) (mv : ℝ) (hm : 0 < mv) :
    mdSelect prob st ⟨draw, .ok a, .ok p, .ok p2, .ok (mv, 0)⟩ = (⟨st.calls + 1, 2⟩, .ok (.pair, p)) ∧
    mdSelect prob st ⟨draw, .ok a, .ok p, .ok p2, .ok (0, mv)⟩ = (⟨st.calls + 1, 1⟩, .ok (.abs, a)) ∧
    mdSelect prob st ⟨draw, .ok a, .ok p, .ok p2, .ok (0, 0)⟩ = (⟨st.calls + 1, 0⟩,
      .ok (if draw ≤ prob st.calls then (.abs, a) else (.pair, p2))) := by
  have h3 : (if st.calls = 5 ∨ st.calls = 10 ∨ st.calls = 15 then 3 else st.state) = 3 := if_pos hd
  have r1 : ratioLarge mv 0 := by unfold ratioLarge; rw [if_neg hm.ne', if_pos rfl]; exact hm
  have r2 : ratioLarge 0 mv := by unfold ratioLarge; rw [if_pos rfl, if_neg hm.ne']; exact hm
  have r3 : ¬ ratioLarge 0 0 := by unfold ratioLarge; simp
  refine ⟨?_, ?_, ?_⟩
  · simp only [mdSelect, h3]
    simp only [OfNat.ofNat_ne_zero, OfNat.ofNat_ne_one, if_false, Nat.reduceEqDiff]
    rw [if_pos r1, if_pos hm]
  · simp only [mdSelect, h3]
    simp only [OfNat.ofNat_ne_zero, OfNat.ofNat_ne_one, if_false, Nat.reduceEqDiff]
    rw [if_pos r2, if_neg (by linarith)]
  · simp only [mdSelect, h3]
    simp only [OfNat.ofNat_ne_zero, OfNat.ofNat_ne_one, if_false, Nat.reduceEqDiff]
    rw [if_neg r3]
    unfold drawPick
    by_cases hdr : draw ≤ prob st.calls <;> simp [hdr]

/-- C50: between decision points the query type is drawn with the probability that belongs to the
state: the mixing probability in state 0, 0.95 for ratings in state 1, 0.05 in state 2. -/
theorem C50_decision_query (prob : Nat → ℝ) (n s : Nat) (hd : ¬ mdDecides n) (hs : s ≤ 2)
    (draw : ℝ) (p p2 a : α) (m : Except PyErr (ℝ × ℝ)) :
    (mdSelect prob ⟨n, s⟩ ⟨draw, .ok a, .ok p, .ok p2, m⟩).2 =
      .ok (if draw ≤ ([prob n, 0.95, 0.05][s]?.getD 0) then (.abs, a) else (.pair, p)) := by
  have h' : ¬ (n = 5 ∨ n = 10 ∨ n = 15) := hd
  simp only [mdSelect, if_neg h']
  have hcase : s = 0 ∨ s = 1 ∨ s = 2 := by omega
  unfold drawPick
  rcases hcase with rfl | rfl | rfl
  · by_cases h : draw ≤ prob n <;> simp [h]
  · by_cases h : draw ≤ (0.95 : ℝ) <;> simp [h]
  · by_cases h : draw ≤ (0.05 : ℝ) <;> simp [h]

/-! ## C51: comparing scaled metrics -/

/-- C51 for the base class: `RateChooseLearner` takes the query type with the larger metric and uses
the draw exactly on a tie. -/
theorem C51_rate_choose (mp ma : ℝ) :
    (ma < mp → ∀ u, rateChoosePick mp ma u = .pair) ∧
    (mp < ma → ∀ u, rateChoosePick mp ma u = .abs) ∧
    (mp = ma → ∀ u, rateChoosePick mp ma u = if 0.5 < u then .pair else .abs) := by
  refine ⟨fun h u => if_pos h, fun h u => ?_, fun h u => ?_⟩
  · rw [rateChoosePick, if_neg (by linarith), if_neg (by linarith)]
  · rw [rateChoosePick, if_neg (by linarith), if_pos h]

/-- C51 for `MixedComparision`: the pair wins when its scaled metric is larger; the rating wins when
its scaled metric is larger and differs from the unscaled pair metric. Missing: the two cases of
`C51_smaller_counterexample` and `C51_tie_counterexample`. -/
theorem C51_scaled_partial (alpha mp ma u : ℝ) :
    (alpha * ma < (1 - alpha) * mp → mixedCompPick alpha mp ma u = .pair) ∧
    ((1 - alpha) * mp < alpha * ma → mp ≠ alpha * ma → mixedCompPick alpha mp ma u = .abs) := by
  refine ⟨fun h => if_pos h, fun h hne => ?_⟩
  simp only [mixedCompPick]
  rw [if_neg (by linarith), if_neg hne]

/-- C51: whenever the scaled rating metric equals the unscaled pair metric, the pair query can be
returned although its scaled metric is smaller (default `alpha = 0.5`, any positive pair metric). -/
theorem C51_smaller_counterexample (alpha mp ma : ℝ) (ha : 0 < alpha) (hp : 0 < mp)
    (he : alpha * ma = mp) :
    (1 - alpha) * mp < alpha * ma ∧
      ∀ u, mixedCompPick alpha mp ma u = if 0.5 < u then .pair else .abs := by
  have h1 : (1 - alpha) * mp < alpha * ma := by nlinarith
  refine ⟨h1, fun u => ?_⟩
  simp only [mixedCompPick]
  rw [if_neg (by linarith), if_pos he.symm]

/-- C51: a tie of the scaled metrics (here with `0 < alpha < 1` and positive metrics) is never broken
at random: the rating is always taken. -/
theorem C51_tie_counterexample (alpha mp ma u : ℝ) (ha : 0 < alpha) (hp : 0 < mp)
    (he : (1 - alpha) * mp = alpha * ma) : mixedCompPick alpha mp ma u = .abs := by
  simp only [mixedCompPick]
  rw [if_neg (by linarith), if_neg (by rw [← he]; intro h; nlinarith)]

example : (0.5 : ℝ) * 2 = 1 ∧ (1 - (0.5 : ℝ)) * 1 = 0.5 * 1 := by norm_num

/-- C51 for `MixedComparisionEqualChecking`: unless the two points of the pair share a coordinate and
the effect size is below the limit, the type with the larger metric is taken. -/
theorem C51_equal_checking {d : Nat} (limit eta2 : ℝ) (x y : Fin d → ℝ) (mp ma u : ℝ)
    (h : ¬ ((∃ c, x c = y c) ∧ eta2 < limit)) :
    equalCheckPick limit eta2 x y mp ma u = rateChoosePick mp ma u := if_neg h

/-- C51: the comment says the bypass applies when "there is at least one pair that is the same", but
two different points which share one coordinate trigger it: the rating is then asked even though the
pair metric is larger. -/
theorem C51_equal_checking_counterexample (mp ma u : ℝ) (_hm : ma < mp) :
    ∃ x y : Fin 2 → ℝ, x ≠ y ∧ equalCheckPick 0.06 0 x y mp ma u = .abs := by
  refine ⟨fun _ => 0, fun i => if i = 0 then 0 else 1, fun h => ?_, ?_⟩
  · have := congrFun h 1
    norm_num at this
  · exact if_pos ⟨⟨0, by simp⟩, by norm_num⟩

/-! ## C52: `AlignmentDecision` -/

/-- C52: none of the first `calls_to_decision` calls after `set_model` returns, whatever the
sub-learners and `determine_query_type` give: with working sub-learners the call raises
`UnboundLocalError` after advancing the counter. -/
theorem C52_never_returned (limit n : Nat) (h : n < limit) (d : Except PyErr (Bool × ℝ × ℝ))
    (s : SubSel α) :
    (∀ r, (alignSelect limit n d s).2 ≠ .ok r) ∧
    (returnedSel (.select s) = true →
      alignSelect limit n d s = (n + 1, .error .unboundLocal)) := by
  obtain ⟨sp, sa⟩ := s
  constructor
  · intro r
    unfold alignSelect
    rw [if_pos h]
    repeat' split
    all_goals simp
  · intro hr
    cases sp <;> cases sa <;> simp_all [returnedSel, alignSelect]
    by_cases hp : n % 2 = 0 <;> simp [hp]

/-- C52: after those calls the selection is returned (as the first component of a triple), of the type
which `determine_query_type` decided. Missing: the first `calls_to_decision` calls. -/
theorem C52_returns_partial (limit n : Nat) (h : limit ≤ n) (b : Bool) (rs ps : ℝ) (p a : α) :
    alignSelect limit n (.ok (b, rs, ps)) ⟨.ok p, .ok a⟩ =
      (n + 1, .ok ⟨if b then p else a, rs, ps⟩) := by
  unfold alignSelect
  rw [if_neg (by omega)]
  cases b <;> rfl

/-- C52: over a whole history. After `set_model` followed by `k` selections with working sub-learners
and decisions, the counter is `k`, so exactly the first `calls_to_decision` of them raised. -/
theorem C52_history_counterexample (limit : Nat) (n₀ : Nat) (sels : List ((Bool × ℝ × ℝ) × α × α)) :
    (AlignOp.setModel :: sels.map fun s => AlignOp.select (.ok s.1) ⟨.ok s.2.1, .ok s.2.2⟩).foldl
      (alignStep limit) n₀ = sels.length ∧
    ∀ s : (Bool × ℝ × ℝ) × α × α, (∃ r, (alignSelect limit sels.length (.ok s.1)
      ⟨.ok s.2.1, .ok s.2.2⟩).2 = .ok r) ↔ limit ≤ sels.length := by
  have hstep : ∀ (n : Nat) (s : (Bool × ℝ × ℝ) × α × α),
      alignStep limit n (.select (.ok s.1) ⟨.ok s.2.1, .ok s.2.2⟩) = n + 1 := by
    rintro n ⟨⟨b, rs, ps⟩, p, a⟩
    by_cases h : n < limit
    · simp [alignStep, (C52_never_returned limit n h (.ok (b, rs, ps)) ⟨.ok p, .ok a⟩).2 rfl]
    · simp [alignStep, C52_returns_partial limit n (not_lt.1 h) b rs ps p a]
  have hfold : ∀ (l : List ((Bool × ℝ × ℝ) × α × α)) (n : Nat),
      (l.map fun s => AlignOp.select (.ok s.1) ⟨.ok s.2.1, .ok s.2.2⟩).foldl (alignStep limit) n
        = n + l.length := by
    intro l
    induction l with
    | nil => simp
    | cons s l ih =>
      intro n
      rw [List.map_cons, List.foldl_cons, hstep, ih, List.length_cons]
      omega
  refine ⟨?_, ?_⟩
  · rw [List.foldl_cons]
    have := hfold sels 0
    simpa [alignStep] using this
  · rintro ⟨⟨b, rs, ps⟩, p, a⟩
    constructor
    · rintro ⟨r, hr⟩
      by_contra hlt
      exact (C52_never_returned limit _ (not_le.1 hlt) _ _).1 r hr
    · intro h
      exact ⟨_, by rw [C52_returns_partial limit _ h b rs ps p a]⟩

/-! ## C53: mixing probabilities -/

theorem peak_three (n : Nat) (hn : 2 ≤ n) :
    probPeak n = 0.8 * Real.exp ((2 - (n : ℝ)) * 0.2) + 0.1 := by
  rcases n with _ | _ | _ | n
  · omega
  · omega
  · norm_num [probPeak]
  · rfl

theorem peak3_three (c : ℝ) (n : Nat) (hn : 2 ≤ n) :
    probPeak3 c n = 0.9 * Real.exp ((2 - (n : ℝ)) * c) := by
  rcases n with _ | _ | _ | n
  · omega
  · omega
  · norm_num [probPeak3]
  · rfl

theorem peak2_eq (n : Nat) : probPeak2 n = probPeak3 0.2 n := by
  rcases n with _ | _ | _ | n <;> rfl

theorem exp_decay {c : ℝ} (hc : 0 < c) :
    Tendsto (fun n : Nat => Real.exp ((2 - (n : ℝ)) * c)) atTop (nhds 0) := by
  refine Real.tendsto_exp_atBot.comp ?_
  have h1 : Tendsto (fun n : Nat => (n : ℝ) - 2) atTop atTop :=
    tendsto_natCast_atTop_atTop.atTop_add tendsto_const_nhds
  have h2 := (h1.atTop_mul_const hc)
  have h3 := tendsto_neg_atTop_atBot.comp h2
  refine h3.congr fun n => ?_
  simp only [Function.comp]
  ring

theorem exp_decay_anti {c : ℝ} (hc : 0 < c) {m n : Nat} (h : m < n) :
    Real.exp ((2 - (n : ℝ)) * c) < Real.exp ((2 - (m : ℝ)) * c) := by
  apply Real.exp_lt_exp.2
  have : (m : ℝ) < n := by exact_mod_cast h
  nlinarith

theorem exp_decay_le {c : ℝ} (hc : 0 ≤ c) {n : Nat} (h : 2 ≤ n) :
    Real.exp ((2 - (n : ℝ)) * c) ≤ 1 := by
  apply Real.exp_le_one_iff.2
  have : (2 : ℝ) ≤ n := by exact_mod_cast h
  nlinarith

/-- C53: `Peak`, `Peak2` and (for a non-negative parameter) `Peak3` give probabilities at every call. -/
theorem C53_peak_prob (c : ℝ) (hc : 0 ≤ c) (n : Nat) :
    IsProb (probPeak n) ∧ IsProb (probPeak2 n) ∧ IsProb (probPeak3 c n) := by
  by_cases hn : 2 ≤ n
  · rw [peak2_eq, peak_three n hn, peak3_three _ n hn, peak3_three _ n hn]
    have h1 := exp_decay_le (c := 0.2) (by norm_num) hn
    have h2 := exp_decay_le hc hn
    have p1 := Real.exp_pos ((2 - (n : ℝ)) * 0.2)
    have p2 := Real.exp_pos ((2 - (n : ℝ)) * c)
    refine ⟨⟨by positivity, by linarith⟩, ⟨by positivity, by linarith⟩, ⟨by positivity, by linarith⟩⟩
  · have : n = 0 ∨ n = 1 := by omega
    rcases this with rfl | rfl <;> simp only [IsProb, probPeak, probPeak2, probPeak3] <;> norm_num

/-- C53, shape of the peaked probabilities: from the third call on they strictly decrease, `Peak` to
0.1, `Peak2` and `Peak3` (positive parameter) to 0. Missing: the first three calls, see
`C53_peak_counterexample`. -/
theorem C53_peak_shape_partial (c : ℝ) (hc : 0 < c) :
    (∀ m n, 2 ≤ m → m < n → probPeak n < probPeak m ∧ probPeak2 n < probPeak2 m ∧
      probPeak3 c n < probPeak3 c m) ∧
    Tendsto probPeak atTop (nhds 0.1) ∧ Tendsto probPeak2 atTop (nhds 0) ∧
    Tendsto (probPeak3 c) atTop (nhds 0) := by
  refine ⟨fun m n hm h => ?_, ?_, ?_, ?_⟩
  · rw [peak2_eq, peak2_eq, peak_three n (by omega), peak3_three _ n (by omega),
      peak3_three _ n (by omega), peak_three m hm, peak3_three _ m hm, peak3_three _ m hm]
    have h1 := exp_decay_anti (c := 0.2) (by norm_num) h
    have h2 := exp_decay_anti hc h
    exact ⟨by linarith, by linarith, by linarith⟩
  · have := ((exp_decay (c := 0.2) (by norm_num)).const_mul 0.8).add_const 0.1
    rw [mul_zero, zero_add] at this
    refine this.congr' ?_
    filter_upwards [eventually_ge_atTop 2] with n hn
    exact (peak_three n hn).symm
  · have := (exp_decay (c := 0.2) (by norm_num)).const_mul 0.9
    rw [mul_zero] at this
    refine this.congr' ?_
    filter_upwards [eventually_ge_atTop 2] with n hn
    rw [peak2_eq]
    exact (peak3_three _ n hn).symm
  · have := (exp_decay hc).const_mul 0.9
    rw [mul_zero] at this
    refine this.congr' ?_
    filter_upwards [eventually_ge_atTop 2] with n hn
    exact (peak3_three _ n hn).symm

/-- C53: over all call numbers the peaked probabilities are not decreasing: they first rise. -/
theorem C53_peak_counterexample (c : ℝ) :
    probPeak 0 < probPeak 1 ∧ probPeak 1 < probPeak 2 ∧
    probPeak2 0 < probPeak2 1 ∧ probPeak2 1 < probPeak2 2 ∧
    probPeak3 c 0 < probPeak3 c 1 ∧ probPeak3 c 1 < probPeak3 c 2 := by
  simp only [probPeak, probPeak2, probPeak3]
  norm_num

/-- C53: with a negative parameter `Peak3` leaves [0,1]. -/
theorem C53_peak3_counterexample (c : ℝ) (hc : c < 0) : ∃ n, ¬ IsProb (probPeak3 c n) := by
  obtain ⟨n, hn⟩ := exists_nat_gt (2 + 1 / -c)
  have hc' : 0 < -c := by linarith
  have h2 : (2 : ℝ) < n := by
    have := one_div_pos.2 hc'
    linarith
  have hn2 : 2 ≤ n := by
    have : (2 : ℝ) ≤ n := h2.le
    exact_mod_cast this
  refine ⟨n, fun h => ?_⟩
  have hle := h.2
  rw [peak3_three _ n hn2] at hle
  have h3 : 1 < (2 - (n : ℝ)) * c := by
    have : 1 / -c < n - 2 := by linarith
    rw [div_lt_iff₀ hc'] at this
    nlinarith
  have h4 := Real.add_one_le_exp ((2 - (n : ℝ)) * c)
  linarith

/-- C53: the base class and `RevPeak` give probabilities exactly when their parameter is one. -/
theorem C53_param_prob (c : ℝ) :
    ((∀ n, IsProb (probFixed c n)) ↔ IsProb c) ∧ ((∀ n, IsProb (probRevPeak c n)) ↔ IsProb c) := by
  refine ⟨⟨fun h => h 0, fun h n => h⟩, ⟨fun h => h 2, fun h n => ?_⟩⟩
  rcases n with _ | _ | n
  · simp only [IsProb, probRevPeak]; norm_num
  · simp only [IsProb, probRevPeak]; norm_num
  · exact h

/-- C53: `RevPeak` does not increase with the number of calls: it drops from 0.9 to 0.1, and from the
third call on it is constant. -/
theorem C53_rev_counterexample (c : ℝ) :
    probRevPeak c 0 = 0.9 ∧ probRevPeak c 1 = 0.1 ∧ ∀ n, 2 ≤ n → probRevPeak c n = c := by
  refine ⟨rfl, rfl, fun n hn => ?_⟩
  rcases n with _ | _ | n
  · omega
  · omega
  · rfl

/-- C53: after `set_model` a selection asks a rating query exactly when the draw does not exceed the
probability of the current call number, returns the sub-learner's selection and counts the call. -/
theorem C53_draw (prob : Nat → ℝ) (b : Bool) (n : Nat) (u : ℝ) (p a : α) :
    strategySelect prob b (some n) u ⟨.ok p, .ok a⟩ =
      (some (n + 1), .ok (if u ≤ prob n then (.abs, a) else (.pair, p))) := by
  unfold strategySelect drawPick
  by_cases h : u ≤ prob n <;> simp [h]

/-- C53: the set of draws in [0,1) for which a rating is asked has measure equal to the mixing
probability, so it is the probability of a rating query under a uniform draw. -/
theorem C53_frequency (prob : Nat → ℝ) (b : Bool) (n : Nat) (p a : α) (hp : IsProb (prob n)) :
    MeasureTheory.volume {u : ℝ | 0 ≤ u ∧ u < 1 ∧
      (strategySelect prob b (some n) u ⟨.ok p, .ok a⟩).2 = .ok (.abs, a)} =
      ENNReal.ofReal (prob n) := by
  have hset : {u : ℝ | 0 ≤ u ∧ u < 1 ∧
      (strategySelect prob b (some n) u ⟨.ok p, .ok a⟩).2 = .ok (.abs, a)} =
      Set.Iic (prob n) ∩ Set.Ico 0 1 := by
    ext u
    rw [Set.mem_setOf_eq, C53_draw]
    simp only [Set.mem_inter_iff, Set.mem_Iic, Set.mem_Ico]
    by_cases h : u ≤ prob n <;> simp [h]
  rw [hset]
  apply le_antisymm
  · calc MeasureTheory.volume (Set.Iic (prob n) ∩ Set.Ico 0 1)
        ≤ MeasureTheory.volume (Set.Icc 0 (prob n)) :=
          MeasureTheory.measure_mono fun u hu => ⟨hu.2.1, hu.1⟩
      _ = ENNReal.ofReal (prob n) := by rw [Real.volume_Icc, sub_zero]
  · calc ENNReal.ofReal (prob n) = MeasureTheory.volume (Set.Ico 0 (prob n)) := by
          rw [Real.volume_Ico, sub_zero]
      _ ≤ MeasureTheory.volume (Set.Iic (prob n) ∩ Set.Ico 0 1) :=
          MeasureTheory.measure_mono fun u hu => ⟨hu.2.le, hu.1, lt_of_lt_of_le hu.2 hp.2⟩

/-- C53: before `set_model` no selection returns (the counter does not exist): `AttributeError`, unless the sub-learner
raised first. -/
theorem C53_no_model_counterexample (prob : Nat → ℝ) (b : Bool) (u : ℝ) (s : SubSel α) :
    ∃ e, strategySelect prob b none u s = (none, .error e) ∧
      (e = .attributeError ∨ s.abs = .error e ∨ s.pair = .error e) := by
  simp only [strategySelect]
  repeat' split
  all_goals first
    | exact ⟨_, rfl, .inl rfl⟩
    | exact ⟨_, rfl, .inr (.inl (by assumption))⟩
    | exact ⟨_, rfl, .inr (.inr (by assumption))⟩

/-- C53: before `set_model`, with sub-learners that return, it is `AttributeError`. -/
theorem C53_no_model_raises (prob : Nat → ℝ) (b : Bool) (u : ℝ) (p a : α) :
    strategySelect prob b none u ⟨.ok p, .ok a⟩ = (none, .error .attributeError) := by
  obtain ⟨e, h, rfl | h' | h'⟩ := C53_no_model_counterexample prob b u ⟨.ok p, .ok a⟩
  · exact h
  · cases h'
  · cases h'

example : IsProb (0.3 : ℝ) ∧ (0 : ℝ) < 0.3 := by unfold IsProb; norm_num

end Lop.Props
