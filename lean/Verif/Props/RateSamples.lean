import Verif.Model.RateSamples

/-! # C105: comparing a rating with a pair query on samples of the present model -/

namespace Lop.Props

variable {σ α : Type}

/-- What the three comparing learners should compare (specification): `s` are samples of the present model for the
present candidates, `p` and `a` the queries of the two sub-learners and `mp`, `ma` their metrics, both computed
from `s`. `as` are the samples the rating learner selects with. -/
structure Compared (i : RCIn σ α) (as : Option σ) (s : σ) (p : α) (mp : ℝ) (a : α) (ma : ℝ) : Prop where
  prepared : i.prepare = .ok ()
  fresh : i.fresh = .ok s
  pair : i.pair s = .ok (p, mp)
  abs : i.abs as = .ok a
  metric : i.absMetric s a = .ok ma

theorem rcQueries_ok (own : Bool) (st : RCState σ) (i : RCIn σ α) (q : σ × (α × ℝ) × (α × ℝ)) :
    (rcQueries own st i).2 = .ok q ↔
      Compared i (if own then some q.1 else none) q.1 q.2.1.1 q.2.1.2 q.2.2.1 q.2.2.2 := by
  obtain ⟨s, ⟨p, mp⟩, a, ma⟩ := q
  unfold rcQueries rcPrepare
  cases hp : i.prepare with
  | error e => exact ⟨fun h => by simp at h, fun h => by have := h.prepared; rw [hp] at this; cases this⟩
  | ok u =>
    cases hf : i.fresh with
    | error e => exact ⟨fun h => by simp [getSamples] at h, fun h => by have := h.fresh; rw [hf] at this; cases this⟩
    | ok s' =>
      simp only [getSamples, bind, Except.bind, pure, Except.pure]
      constructor
      · intro h
        cases h1 : i.pair s' with
        | error e => simp [h1] at h
        | ok p' =>
          cases h2 : i.abs (if own then some s' else none) with
          | error e => simp [h1, h2] at h
          | ok a' =>
            cases h3 : i.absMetric s' a' with
            | error e => simp [h1, h2, h3] at h
            | ok m' =>
              simp only [h1, h2, h3, Except.ok.injEq, Prod.mk.injEq] at h
              obtain ⟨rfl, rfl, rfl, rfl⟩ := h
              exact ⟨hp, hf, h1, h2, h3⟩
      · rintro ⟨-, h0, h1, h2, h3⟩
        rw [hf] at h0
        cases h0
        simp [h1, h2, h3]

/-- What is found out, or the exception raised, does not depend on the samples that were set before. -/
theorem rcQueries_free (own : Bool) (st st' : RCState σ) (i : RCIn σ α) :
    (rcQueries own st i).2 = (rcQueries own st' i).2 := by
  unfold rcQueries rcPrepare
  cases i.prepare with
  | error e => rfl
  | ok u => cases i.fresh <;> rfl

theorem rcTake_ok (c c' : Choice) (p a x : α) :
    rcTake c p a = (c', x) ↔ c' = c ∧ x = (if c = .pair then p else a) := by
  cases c <;> simp [rcTake, eq_comm]

/-- C105: whatever was selected before, with whatever models and candidates and whatever exceptions, a call of
`RateChooseLearner.select` behaves as on a new object. -/
theorem C105_rate_choose_history (ops : List (RCOp σ α)) (i : RCIn σ α) :
    (rateChooseSelect (rcRun rateChooseSelect ops) i).2 = (rateChooseSelect ⟨none, none⟩ i).2 := by
  simp only [rateChooseSelect]
  rw [rcQueries_free]

/-- C105 for `MixedComparision`. -/
theorem C105_mixed_history (alpha : ℝ) (ops : List (RCOp σ α)) (i : RCIn σ α) :
    (mixedCompSelect alpha (rcRun (mixedCompSelect alpha) ops) i).2 = (mixedCompSelect alpha ⟨none, none⟩ i).2 := by
  simp only [mixedCompSelect]
  rw [rcQueries_free]

/-- C105 for `MixedComparisionEqualChecking`. -/
theorem C105_equal_history {d : Nat} (limit : ℝ) (cand : Nat → Fin d → ℝ) (eta2 : σ → Nat → Nat → ℝ)
    (ops : List (RCOp σ (List Nat))) (i : RCIn σ (List Nat)) :
    (equalCheckSelect limit cand eta2 (rcRun (equalCheckSelect limit cand eta2) ops) i).2 =
      (equalCheckSelect limit cand eta2 ⟨none, none⟩ i).2 := by
  simp only [equalCheckSelect]
  rw [rcQueries_free]

/-- C105: a query returned by `RateChooseLearner.select` is the one with the larger metric (on a tie the draw
decides), where both metrics were computed from the same samples, drawn in this call. -/
theorem C105_rate_choose (st : RCState σ) (i : RCIn σ α) (c : Choice) (x : α)
    (h : (rateChooseSelect st i).2 = .ok (c, x)) :
    ∃ s p mp a ma, Compared i (some s) s p mp a ma ∧ x = (if c = .pair then p else a) ∧
      (ma < mp → c = .pair) ∧ (mp < ma → c = .abs) ∧ (mp = ma → (c = .pair ↔ 0.5 < i.draw)) := by
  simp only [rateChooseSelect] at h
  cases hq : (rcQueries true st i).2 with
  | error e => rw [hq] at h; cases h
  | ok q =>
    rw [hq] at h
    simp only [Except.map, Except.ok.injEq] at h
    obtain ⟨rfl, hx⟩ := (rcTake_ok _ _ _ _ _).1 h
    refine ⟨q.1, _, _, _, _, by simpa using (rcQueries_ok true st i q).1 hq, hx, ?_, ?_, ?_⟩
    · intro hm; simp [rateChoosePick, hm]
    · intro hm; simp [rateChoosePick, not_lt.2 hm.le, hm.ne]
    · intro hm
      simp only [rateChoosePick, hm, gt_iff_lt, lt_irrefl, if_false, if_true]
      split <;> simp_all

/-- C105, conversely: if the samples can be drawn and both sub-learners work, `RateChooseLearner.select` returns. -/
theorem C105_rate_choose_returns (st : RCState σ) (i : RCIn σ α) {s : σ} {p : α} {mp : ℝ} {a : α} {ma : ℝ}
    (h : Compared i (some s) s p mp a ma) : ∃ c x, (rateChooseSelect st i).2 = .ok (c, x) := by
  have := (rcQueries_ok true st i (s, (p, mp), (a, ma))).2 (by simpa using h)
  simp only [rateChooseSelect, this]
  exact ⟨_, _, rfl⟩

/-- C105 for `MixedComparision`: both metrics come from the samples drawn in this call, and a pair whose scaled
metric is larger is returned; a returned pair has the larger scaled metric unless the metric of the pair equals the
scaled metric of the rating (C51). -/
theorem C105_mixed (alpha : ℝ) (st : RCState σ) (i : RCIn σ α) (c : Choice) (x : α)
    (h : (mixedCompSelect alpha st i).2 = .ok (c, x)) :
    ∃ s p mp a ma, Compared i none s p mp a ma ∧ x = (if c = .pair then p else a) ∧
      (alpha * ma < (1 - alpha) * mp → c = .pair) ∧
      (c = .pair → alpha * ma < (1 - alpha) * mp ∨ mp = alpha * ma ∧ 0.5 < i.draw) := by
  simp only [mixedCompSelect] at h
  cases hq : (rcQueries false st i).2 with
  | error e => rw [hq] at h; cases h
  | ok q =>
    rw [hq] at h
    simp only [Except.map, Except.ok.injEq] at h
    obtain ⟨rfl, hx⟩ := (rcTake_ok _ _ _ _ _).1 h
    refine ⟨q.1, _, _, _, _, by simpa using (rcQueries_ok false st i q).1 hq, hx, ?_, ?_⟩
    · intro hm; simp [mixedCompPick, hm]
    · intro hm
      by_contra hc
      push Not at hc
      simp only [mixedCompPick, gt_iff_lt, not_lt.2 hc.1, if_false] at hm
      by_cases he : q.2.1.2 = alpha * q.2.2.2
      · simp only [he, if_true, not_lt.2 (hc.2 he), if_false] at hm; cases hm
      · simp only [he, if_false] at hm; cases hm

/-- C105 for `MixedComparisionEqualChecking`: a call that returns compared a pair query of exactly two members,
with both metrics from the samples drawn in this call; a returned pair has the larger metric (or wins the draw on a
tie). -/
theorem C105_equal {d : Nat} (limit : ℝ) (cand : Nat → Fin d → ℝ) (eta2 : σ → Nat → Nat → ℝ)
    (st : RCState σ) (i : RCIn σ (List Nat)) (c : Choice) (l : List Nat)
    (h : (equalCheckSelect limit cand eta2 st i).2 = .ok (c, l)) :
    ∃ s x y mp a ma, Compared i none s [x, y] mp a ma ∧ l = (if c = .pair then [x, y] else a) ∧
      (c = .pair → ma < mp ∨ mp = ma ∧ 0.5 < i.draw) ∧
      (mp < ma ∨ (∃ k, cand x k = cand y k) ∧ eta2 s x y < limit → c = .abs) := by
  simp only [equalCheckSelect] at h
  cases hq : (rcQueries false st i).2 with
  | error e => rw [hq] at h; cases h
  | ok q =>
    rw [hq] at h
    obtain ⟨s, ⟨p, mp⟩, a, ma⟩ := q
    have hC := (rcQueries_ok false st i _).1 hq
    simp only [Except.bind] at h
    split at h
    · rename_i x y
      simp only [Except.ok.injEq] at h
      obtain ⟨rfl, hx⟩ := (rcTake_ok _ _ _ _ _).1 h
      refine ⟨s, x, y, mp, a, ma, by simpa using hC, hx, ?_, ?_⟩
      · intro hc
        unfold equalCheckPick at hc
        split at hc
        · cases hc
        · unfold rateChoosePick at hc
          split at hc
          · left; assumption
          · split at hc
            · split at hc
              · right; constructor <;> assumption
              · cases hc
            · cases hc
      · rintro (hm | hk)
        · unfold equalCheckPick rateChoosePick
          split
          · rfl
          · simp [not_lt.2 hm.le, hm.ne]
        · unfold equalCheckPick
          rw [if_pos hk]
    · cases h

/-- C105: with any other number of alternatives `MixedComparisionEqualChecking.select` never returns: once both
sub-learners have selected it raises `NotImplementedError`. -/
theorem C105_equal_size_false {d : Nat} (limit : ℝ) (cand : Nat → Fin d → ℝ) (eta2 : σ → Nat → Nat → ℝ)
    (st : RCState σ) (i : RCIn σ (List Nat)) {s : σ} {p : List Nat} {mp : ℝ} {a : List Nat} {ma : ℝ}
    (h : Compared i none s p mp a ma) (hp : p.length ≠ 2) :
    (equalCheckSelect limit cand eta2 st i).2 = .error .notImplemented := by
  have := (rcQueries_ok false st i (s, (p, mp), (a, ma))).2 (by simpa using h)
  simp only [equalCheckSelect, this, Except.bind]
  split
  · exact absurd rfl hp
  · rfl

/-- C105, refuted for sub-learners that are also used on their own: after a call that drew samples, and also after
a later `set_model`, the pair learner computes from these samples and not from the model it then has. -/
theorem C105_left_false (i : RCIn σ α) {s : σ} (hp : i.prepare = .ok ()) (hs : i.fresh = .ok s)
    (ops : List (RCOp σ α)) (fresh : Except PyErr σ) :
    getSamples (rcRun rateChooseSelect (ops ++ [.select i, .setModel])).pairS fresh = .ok s ∧
    getSamples (rcRun rateChooseSelect (ops ++ [.select i, .setModel])).compS fresh = .ok s := by
  have : rcRun rateChooseSelect (ops ++ [.select i, .setModel]) = ⟨some s, some s⟩ := by
    simp [rcRun, rcStep, rateChooseSelect, rcQueries, rcPrepare, hp, hs, getSamples]
  simp [this, getSamples]

/-- C105, what a call leaves behind, exactly, for the three classes: when the preparation or the sampling raises, the
pair learner has no samples set (a sample of an earlier call does not survive) and those of the compared rating
learner are untouched; otherwise both have the samples drawn by this very call, also when a sub-learner then raises. -/
theorem C105_left (st : RCState σ) (i : RCIn σ α) (e : PyErr) (s : σ) :
    (i.prepare = .error e → (rateChooseSelect st i).1 = ⟨none, st.compS⟩ ∧
      ∀ alpha, (mixedCompSelect alpha st i).1 = ⟨none, st.compS⟩) ∧
    (i.prepare = .ok () → i.fresh = .error e → (rateChooseSelect st i).1 = ⟨none, st.compS⟩ ∧
      ∀ alpha, (mixedCompSelect alpha st i).1 = ⟨none, st.compS⟩) ∧
    (i.prepare = .ok () → i.fresh = .ok s → (rateChooseSelect st i).1 = ⟨some s, some s⟩ ∧
      ∀ alpha, (mixedCompSelect alpha st i).1 = ⟨some s, some s⟩) := by
  refine ⟨fun h => ?_, fun h h' => ?_, fun h h' => ?_⟩ <;>
    simp [rateChooseSelect, mixedCompSelect, rcQueries, rcPrepare, getSamples, *]

/-- C105: the samples at any time are those left by the last call of `select` (`set_model` in between or after it
changes nothing); on a new object there are none. -/
theorem C105_run (sel : RCState σ → RCIn σ α → RCState σ × Except PyErr (Choice × α)) (ops : List (RCOp σ α))
    (i : RCIn σ α) (k : Nat) :
    rcRun sel (List.replicate k .setModel) = ⟨none, none⟩ ∧
      rcRun sel (ops ++ .select i :: List.replicate k .setModel) = (sel (rcRun sel ops) i).1 := by
  have h : ∀ st k, (List.replicate k (RCOp.setModel : RCOp σ α)).foldl (rcStep sel) st = st := by
    intro st k
    induction k with
    | zero => rfl
    | succ k ih => rw [List.replicate_succ, List.foldl_cons]; exact ih
  refine ⟨h _ _, ?_⟩
  simp only [rcRun, List.foldl_append, List.foldl_cons, h]
  rfl

/-- C105: the same for `MixedComparisionEqualChecking`. -/
theorem C105_left_equal {d : Nat} (limit : ℝ) (cand : Nat → Fin d → ℝ) (eta2 : σ → Nat → Nat → ℝ)
    (st : RCState σ) (i : RCIn σ (List Nat)) (e : PyErr) (s : σ) :
    (i.prepare = .error e → (equalCheckSelect limit cand eta2 st i).1 = ⟨none, st.compS⟩) ∧
    (i.prepare = .ok () → i.fresh = .error e → (equalCheckSelect limit cand eta2 st i).1 = ⟨none, st.compS⟩) ∧
    (i.prepare = .ok () → i.fresh = .ok s → (equalCheckSelect limit cand eta2 st i).1 = ⟨some s, some s⟩) := by
  refine ⟨fun h => ?_, fun h h' => ?_, fun h h' => ?_⟩ <;>
    simp [equalCheckSelect, rcQueries, rcPrepare, getSamples, *]

/-- Samples `5`; the pair query has metric 2, the rating query metric 1. -/
noncomputable def rcDemo : RCIn Nat (List Nat) where
  draw := 0
  prepare := .ok ()
  fresh := .ok 5
  pair := fun s => .ok ([s, 7], 2)
  abs := fun s => .ok [s.getD 3]
  absMetric := fun _ _ => .ok 1

example : Compared rcDemo (some 5) 5 [5, 7] 2 [5] 1 ∧ Compared rcDemo none 5 [5, 7] 2 [3] 1 :=
  ⟨⟨rfl, rfl, rfl, rfl, rfl⟩, ⟨rfl, rfl, rfl, rfl, rfl⟩⟩

/-- A pair learner that returns three points (`C105_equal_size_false`). -/
example : Compared { rcDemo with pair := fun s => .ok ([s, 7, 8], 2) } none 5 [5, 7, 8] 2 [3] 1 ∧
    ([5, 7, 8] : List Nat).length ≠ 2 := ⟨⟨rfl, rfl, rfl, rfl, rfl⟩, by decide⟩

/-- The hypotheses of `C105_rate_choose`, `C105_mixed` and `C105_equal` are met. -/
example : (rateChooseSelect ⟨some 1, none⟩ rcDemo).2 = .ok (.pair, [5, 7]) ∧
    (mixedCompSelect 0.5 ⟨some 1, none⟩ rcDemo).2 = .ok (.pair, [5, 7]) ∧
    (equalCheckSelect (d := 1) 0.06 (fun k _ => k) (fun _ _ _ => 0) ⟨some 1, none⟩ rcDemo).2 =
      .ok (.pair, [5, 7]) := by
  refine ⟨?_, ?_, ?_⟩
  · have : rateChoosePick 2 1 0 = .pair := by norm_num [rateChoosePick]
    simp only [rateChooseSelect, rcQueries, rcPrepare, rcDemo, getSamples, bind, Except.bind, pure, Except.pure,
      Except.map, this, rcTake]
  · have : mixedCompPick 0.5 2 1 0 = .pair := by norm_num [mixedCompPick]
    simp only [mixedCompSelect, rcQueries, rcPrepare, rcDemo, getSamples, bind, Except.bind, pure, Except.pure,
      Except.map, this, rcTake]
  · have : equalCheckPick (d := 1) 0.06 0 (fun _ => ((5:ℕ):ℝ)) (fun _ => ((7:ℕ):ℝ)) 2 1 0 = .pair := by
      unfold equalCheckPick
      rw [if_neg (by norm_num)]
      norm_num [rateChoosePick]
    simp only [equalCheckSelect, rcQueries, rcPrepare, rcDemo, getSamples, bind, Except.bind, pure, Except.pure,
      this, rcTake]

/-- A model that is not ready for a prediction, after an earlier call that left samples. -/
example : (rateChooseSelect (⟨some 4, some 4⟩ : RCState Nat)
    ({ rcDemo with prepare := .error .attributeError })).1 = ⟨none, some 4⟩ :=
  ((C105_left _ _ _ 0).1 rfl).1

end Lop.Props
