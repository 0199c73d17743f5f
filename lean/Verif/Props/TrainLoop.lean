import Verif.Model.TrainLoop
import Verif.Spec.TrainLoop
import Verif.Proofs.Basic
import Verif.Props.Downselect
import Mathlib.Tactic.Linarith
import Mathlib.Tactic.NormNum

/-! # C83: the record of the queries in a training run -/

namespace Lop.Props

open Lop Spec

variable {X ρ : Type*}

/-- The query made in a step: the rows shown. -/
def IsQuery (i : TrainIn X) (sel : List Nat) (q : List X) : Prop :=
  ∃ rows hidden, i.rewards = .ok rows ∧ i.select = .ok (sel, hidden) ∧ sel.map (rows[·]?) = q.map some

/-- The loop keeps one record and one evaluation for each step. -/
theorem trainLoop_ok {selType : String} {perfect : Bool} {steps : List (TrainIn X × Except PyErr ρ)}
    {qs : List (Int × Int)} {ms : List ρ} (h : trainLoop selType perfect steps = .ok (qs, ms)) :
    qs.length = steps.length ∧ ms.length = steps.length ∧
    ∀ (j : Nat) s, steps[j]? = some s → ∃ q m, qs[j]? = some q ∧ ms[j]? = some m ∧
      trainStep selType perfect s.1 = .ok q ∧ s.2 = .ok m := by
  induction steps generalizing qs ms with
  | nil =>
    simp [trainLoop] at h
    obtain ⟨rfl, rfl⟩ := h
    exact ⟨rfl, rfl, fun j s hs => by simp at hs⟩
  | cons s rest ih =>
    obtain ⟨i, ev⟩ := s
    rw [trainLoop] at h
    cases hq : trainStep selType perfect i with
    | error e => rw [hq] at h; cases h
    | ok q =>
      rw [hq] at h
      simp only at h
      cases ev with
      | error e => cases h
      | ok m =>
        simp only at h
        cases hr : trainLoop selType perfect rest with
        | error e => rw [hr] at h; cases h
        | ok p =>
          obtain ⟨qs', ms'⟩ := p
          rw [hr] at h
          injection h with h
          injection h with h1 h2
          subst h1 h2
          obtain ⟨i1, i2, i3⟩ := ih hr
          refine ⟨by simp [i1], by simp [i2], fun j s hs => ?_⟩
          cases j with
          | zero => simp at hs; subst hs; exact ⟨q, m, rfl, rfl, hq, rfl⟩
          | succ j => simpa using i3 j s (by simpa using hs)

/-- C83 (shape of the record): a completed run has one entry and one evaluation more than training steps; the first
entries are those of the untrained model, -1; the later ones are those of the steps in their order. -/
theorem C83_shape {selType : String} {perfect : Bool} {eval0 : Except PyErr ρ}
    {steps : List (TrainIn X × Except PyErr ρ)} {qs : List (Int × Int)} {ms : List ρ}
    (h : trainRun selType perfect eval0 steps = .ok (qs, ms)) :
    qs.length = steps.length + 1 ∧ ms.length = steps.length + 1 ∧ qs[0]? = some (-1, -1) ∧
    (∃ m0, eval0 = .ok m0 ∧ ms[0]? = some m0) ∧
    ∀ (j : Nat) s, steps[j]? = some s → ∃ q m, qs[j + 1]? = some q ∧ ms[j + 1]? = some m ∧
      trainStep selType perfect s.1 = .ok q ∧ s.2 = .ok m := by
  unfold trainRun at h
  cases eval0 with
  | error e => cases h
  | ok m0 =>
    simp only at h
    cases hr : trainLoop selType perfect steps with
    | error e => rw [hr] at h; cases h
    | ok p =>
      obtain ⟨qs', ms'⟩ := p
      rw [hr] at h
      injection h with h
      injection h with h1 h2
      subst h1 h2
      obtain ⟨i1, i2, i3⟩ := trainLoop_ok hr
      exact ⟨by simp [i1], by simp [i2], rfl, ⟨m0, rfl, rfl⟩, fun j s hs => by simpa using i3 j s hs⟩

theorem genPairs_head (best : Nat) (l : List Nat) (p : Pair) (ps : List Pair)
    (h : genPairsFromIdx best l = p :: ps) : p.u = best := by
  induction l with
  | nil => simp [genPairsFromIdx] at h
  | cons i rest ih =>
    rw [genPairsFromIdx] at h
    split at h
    · injection h with h1 _
      rw [← h1]
      rfl
    · exact ih h

theorem firstBest_unique {u : List ℝ} {a b : Nat} (ha : FirstBest u a) (hb : FirstBest u b) : a = b := by
  obtain ⟨m, h1, h2, h3⟩ := ha
  obtain ⟨m', k1, k2, k3⟩ := hb
  rcases lt_trichotomy a b with h | h | h
  · exact absurd (h2 b m' k1) (not_le.2 (k3 a m h h1))
  · exact h
  · exact absurd (k2 a m h1) (not_le.2 (h3 b m' h k1))

theorem npArgmax_firstBest {u : List ℝ} {c : Nat} (h : npArgmax u = .ok c) : FirstBest u c := by
  obtain ⟨m, h1, h2, h3⟩ := npArgmax_spec h
  exact ⟨m, h1, fun j a ha => h2 a (List.mem_of_getElem? ha), h3⟩

/-- What one step of type `switch` writes. -/
theorem stepSwitch_ok {i : TrainIn X} {rows : List X} {t f : Int} (hr : i.rewards = .ok rows)
    (h : stepSwitch i rows = .ok (t, f)) :
    ∃ sel q, IsQuery i sel q ∧
      ((sel.length = 1 ∧ t = 1 ∧ f = -1) ∨
       (sel.length ≠ 1 ∧ t = 0 ∧ ∃ c, i.choose q = .ok c ∧
         ((FirstBest (q.map i.util) c ∧ f = 1) ∨ (¬ FirstBest (q.map i.util) c ∧ f = 0)))) := by
  unfold stepSwitch at h
  cases hs : i.select with
  | error e => rw [hs] at h; cases h
  | ok p =>
    obtain ⟨sel, hidden⟩ := p
    rw [hs] at h
    simp only at h
    cases hq : takeRows rows sel with
    | error e => rw [hq] at h; cases h
    | ok q =>
      rw [hq] at h
      simp only at h
      refine ⟨sel, q, ⟨rows, hidden, hr, hs, takeRows_spec hq⟩, ?_⟩
      by_cases h1 : sel.length = 1
      · rw [if_pos h1] at h
        split at h
        · cases h
        · split at h
          · cases h
          · injection h with h
            injection h with h2 h3
            exact .inl ⟨h1, h2.symm, h3.symm⟩
      · rw [if_neg h1] at h
        cases ha : npArgmax (q.map i.util) with
        | error e => rw [ha] at h; cases h
        | ok correct =>
          rw [ha] at h
          simp only at h
          cases hc : i.choose q with
          | error e => simp [choosePairs, hc, Except.map] at h
          | ok c =>
            simp only [choosePairs, hc, Except.map] at h
            split at h
            · cases h
            · cases hp : genPairsFromIdx c (List.range q.length) with
              | nil => simp [hp, correctFlag] at h
              | cons pr ps =>
                have hu := genPairs_head _ _ _ _ hp
                simp only [hp, correctFlag, hu] at h
                injection h with h
                injection h with h2 h3
                refine .inr ⟨h1, h2.symm, c, rfl, ?_⟩
                have hfb := npArgmax_firstBest ha
                by_cases hcc : correct = c
                · subst hcc
                  exact .inl ⟨hfb, by simpa using h3.symm⟩
                · refine .inr ⟨fun hb => hcc (firstBest_unique hfb hb), ?_⟩
                  rw [if_neg hcc] at h3
                  exact h3.symm

/-- C83 (`switch`): in a completed run the type recorded for a step is 1 exactly if the learner asked for one
candidate, 0 otherwise; a rating has the flag -1, and a choice the flag 1 exactly if the user chose the first best
candidate of the query. -/
theorem C83_switch {perfect : Bool} {eval0 : Except PyErr ρ} {steps : List (TrainIn X × Except PyErr ρ)}
    {qs : List (Int × Int)} {ms : List ρ} (h : trainRun "switch" perfect eval0 steps = .ok (qs, ms)) :
    ∀ (j : Nat) s, steps[j]? = some s → ∃ t f sel q, qs[j + 1]? = some (t, f) ∧ IsQuery s.1 sel q ∧
      ((sel.length = 1 ∧ t = 1 ∧ f = -1) ∨
       (sel.length ≠ 1 ∧ t = 0 ∧ ∃ c, s.1.choose q = .ok c ∧
         ((FirstBest (q.map s.1.util) c ∧ f = 1) ∨ (¬ FirstBest (q.map s.1.util) c ∧ f = 0)))) := by
  intro j s hs
  obtain ⟨_, _, _, _, hstep⟩ := C83_shape h
  obtain ⟨⟨t, f⟩, m, h1, _, h2, _⟩ := hstep j s hs
  unfold trainStep at h2
  cases hr : s.1.rewards with
  | error e => rw [hr] at h2; cases h2
  | ok rows =>
    rw [hr] at h2
    simp at h2
    obtain ⟨sel, q, hq, hrest⟩ := stepSwitch_ok hr h2
    exact ⟨t, f, sel, q, h1, hq, hrest⟩

/-- C83 (`switch`): if no two candidates of the query are equally good, the flag is 1 exactly if the user chose a
best candidate. (`C83_tie_counterexample`: not with ties.) -/
theorem C83_correct_partial {i : TrainIn X} {rows : List X} {f : Int} (hr : i.rewards = .ok rows)
    (h : stepSwitch i rows = .ok (0, f)) :
    ∃ sel q c, IsQuery i sel q ∧ i.choose q = .ok c ∧
      ((q.map i.util).Nodup → (f = 1 ↔ ABest (q.map i.util) c) ∧ (f = 0 ↔ ¬ ABest (q.map i.util) c)) := by
  obtain ⟨sel, q, hq, hrest⟩ := stepSwitch_ok hr h
  rcases hrest with ⟨_, h1, _⟩ | ⟨_, _, c, hc, hf⟩
  · norm_num at h1
  · refine ⟨sel, q, c, hq, hc, fun hn => ?_⟩
    have hiff : ABest (q.map i.util) c ↔ FirstBest (q.map i.util) c := by
      constructor
      · rintro ⟨m, h1, h2⟩
        refine ⟨m, h1, h2, fun j a hj ha => lt_of_le_of_ne (h2 j a ha) fun he => ?_⟩
        subst he
        obtain ⟨hj', hja⟩ := List.getElem?_eq_some_iff.1 ha
        obtain ⟨hc', hca⟩ := List.getElem?_eq_some_iff.1 h1
        have := (List.Nodup.getElem_inj_iff hn).1 (hja.trans hca.symm)
        omega
      · rintro ⟨m, h1, h2, _⟩
        exact ⟨m, h1, h2⟩
    rw [hiff]
    rcases hf with ⟨hb, rfl⟩ | ⟨hb, rfl⟩ <;> simp [hb]

/-- C83, refuted with ties: a user who chooses the second of two equally good candidates is recorded as wrong. -/
theorem C83_tie_counterexample : ∃ i : TrainIn ℕ, ∃ rows, i.rewards = .ok rows ∧
    stepSwitch i rows = .ok (0, 0) ∧ ∃ sel q c, IsQuery i sel q ∧ i.choose q = .ok c ∧ ABest (q.map i.util) c := by
  refine ⟨⟨.ok [5, 6], .ok ([0, 1], []), fun _ => .ok 1, fun _ => 0, .ok (), .ok (), .ok ()⟩, [5, 6], rfl, ?_,
    [0, 1], [5, 6], 1, ⟨[5, 6], [], rfl, rfl, by simp⟩, rfl, 0, by simp, ?_⟩
  · simp [stepSwitch, takeRows, npArgmax, argmaxFrom, choosePairs, Except.map, genPairsFromIdx, List.range_succ,
      correctFlag, pairQuery, preference]
  · intro j a ha
    match j with
    | 0 => simp at ha; exact ha.ge
    | 1 => simp at ha; exact ha.ge
    | j + 2 => simp at ha

/-- C83 (`choose1`): every step is recorded as a choice without a flag, also if the learner asked for a single
candidate; then the user's answer contains no comparison at all. -/
theorem C83_choose1 {perfect : Bool} {eval0 : Except PyErr ρ} {steps : List (TrainIn X × Except PyErr ρ)}
    {qs : List (Int × Int)} {ms : List ρ} (h : trainRun "choose1" perfect eval0 steps = .ok (qs, ms)) :
    ∀ (j : Nat) s, steps[j]? = some s → qs[j + 1]? = some (0, -1) ∧
      ∃ sel q c, IsQuery s.1 sel q ∧ s.1.choose q = .ok c ∧
        (sel.length = 1 → c < q.length → choosePairs s.1.choose q = .ok []) := by
  intro j s hs
  obtain ⟨_, _, _, _, hstep⟩ := C83_shape h
  obtain ⟨⟨t, f⟩, m, h1, _, h2, _⟩ := hstep j s hs
  unfold trainStep at h2
  cases hr : s.1.rewards with
  | error e => rw [hr] at h2; cases h2
  | ok rows =>
    rw [hr] at h2
    simp [stepChoose] at h2
    cases hsel : s.1.select with
    | error e => rw [hsel] at h2; cases h2
    | ok p =>
      obtain ⟨sel, hidden⟩ := p
      rw [hsel] at h2
      simp only at h2
      cases hq : takeRows rows sel with
      | error e => rw [hq] at h2; cases h2
      | ok q =>
        rw [hq] at h2
        simp only at h2
        cases hc : s.1.choose q with
        | error e => simp [choosePairs, hc, Except.map] at h2
        | ok c =>
          simp only [choosePairs, hc, Except.map] at h2
          split at h2
          · cases h2
          · split at h2
            · cases h2
            · injection h2 with h2
              injection h2 with h3 h4
              refine ⟨by rw [h1, ← h3, ← h4]; rfl, sel, q, c, ⟨rows, hidden, hr, hsel, takeRows_spec hq⟩, hc, ?_⟩
              intro hl hcl
              have hql : q.length = 1 := by
                have := congrArg List.length (takeRows_spec hq)
                simp at this
                omega
              have hc0 : c = 0 := by omega
              simp [choosePairs, hc, Except.map, hql, hc0, genPairsFromIdx]

/-- C83 (`rating`): every step is recorded as a rating without a flag, of the first candidate selected. -/
theorem C83_rating {perfect : Bool} {eval0 : Except PyErr ρ} {steps : List (TrainIn X × Except PyErr ρ)}
    {qs : List (Int × Int)} {ms : List ρ} (h : trainRun "rating" perfect eval0 steps = .ok (qs, ms)) :
    ∀ (j : Nat) s, steps[j]? = some s → qs[j + 1]? = some (1, -1) ∧
      ∃ rows hidden i rest x, s.1.rewards = .ok rows ∧ s.1.select = .ok (i :: rest, hidden) ∧ rows[i]? = some x := by
  intro j s hs
  obtain ⟨_, _, _, _, hstep⟩ := C83_shape h
  obtain ⟨⟨t, f⟩, m, h1, _, h2, _⟩ := hstep j s hs
  unfold trainStep at h2
  cases hr : s.1.rewards with
  | error e => rw [hr] at h2; cases h2
  | ok rows =>
    rw [hr] at h2
    simp [stepRating] at h2
    cases hsel : s.1.select with
    | error e => rw [hsel] at h2; cases h2
    | ok p =>
      obtain ⟨sel, hidden⟩ := p
      rw [hsel] at h2
      simp only at h2
      cases sel with
      | nil => cases h2
      | cons i rest =>
        simp only at h2
        cases hx : rows[i]? with
        | none => rw [hx] at h2; cases h2
        | some x =>
          rw [hx] at h2
          simp only at h2
          split at h2
          · cases h2
          · split at h2
            · cases h2
            · injection h2 with h2
              injection h2 with h3 h4
              exact ⟨by rw [h1, ← h3, ← h4]; rfl, rows, hidden, i, rest, x, rfl, rfl, hx⟩

/-- C83 (`ranking`): with a user that is not perfect a run with a training step never completes. -/
theorem C83_ranking {eval0 : Except PyErr ρ} {steps : List (TrainIn X × Except PyErr ρ)} (hs : steps ≠ []) :
    ∃ e, trainRun "ranking" false eval0 steps = .error e := by
  cases h : trainRun "ranking" false eval0 steps with
  | error e => exact ⟨e, rfl⟩
  | ok p =>
    obtain ⟨qs, ms⟩ := p
    obtain ⟨_, _, _, _, hstep⟩ := C83_shape h
    obtain ⟨s, rest, rfl⟩ := List.exists_cons_of_ne_nil hs
    obtain ⟨⟨t, f⟩, m, h1, _, h2, _⟩ := hstep 0 s rfl
    unfold trainStep at h2
    cases hr : s.1.rewards with
    | error e => rw [hr] at h2; cases h2
    | ok rows =>
      rw [hr] at h2
      simp [stepChoose] at h2
      split at h2
      · cases h2
      · split at h2 <;> cases h2

/-- C83 (`rating`): a selection of nothing, or of a candidate that does not exist, is an `IndexError`, and nothing is
asked: the outcome does not depend on the user. -/
theorem C83_rating_selection (perfect : Bool) (i : TrainIn X) (rows : List X) (sel hidden : List Nat)
    (hr : i.rewards = .ok rows) (hs : i.select = .ok (sel, hidden))
    (h : sel = [] ∨ ∃ s rest, sel = s :: rest ∧ rows.length ≤ s) :
    trainStep "rating" perfect i = .error .indexError := by
  unfold trainStep
  rw [hr]
  simp only [String.reduceEq, or_self, if_false, if_true]
  unfold stepRating
  rw [hs]
  rcases h with rfl | ⟨s, rest, rfl, hlen⟩
  · rfl
  · simp only [List.getElem?_eq_none hlen]

/-- C83 (`choose1`): what was not shown is stored exactly when there is something not shown: with nothing hidden a
failing store of hidden candidates does not matter, otherwise its exception ends the run. -/
theorem C83_choose1_hidden (perfect : Bool) (i : TrainIn X) (rows q : List X) (sel hidden : List Nat) (best : Nat)
    (hr : i.rewards = .ok rows) (hs : i.select = .ok (sel, hidden)) (hq : takeRows rows sel = .ok q)
    (hc : i.choose q = .ok best) (ha : i.addShown = .ok ()) :
    (hidden = [] → trainStep "choose1" perfect i = .ok (0, -1)) ∧
    (hidden ≠ [] → i.addHidden = .ok () → trainStep "choose1" perfect i = .ok (0, -1)) ∧
    ∀ e, hidden ≠ [] → i.addHidden = .error e → trainStep "choose1" perfect i = .error e := by
  have hb : ∀ r, (match (if hidden.length > 0 then i.addHidden else .ok ()) with
      | .error e => .error e
      | .ok _ => .ok (pairQuery, -1)) = r → trainStep "choose1" perfect i = r := by
    intro r h
    unfold trainStep
    rw [hr]
    simp only [true_or, if_true]
    unfold stepChoose
    rw [hs]
    simp only [hq, choosePairs, hc, Except.map, ha, String.reduceEq, decide_false, Bool.false_eq_true, if_false]
    exact h
  refine ⟨fun h => hb _ ?_, fun h h' => hb _ ?_, fun e h h' => hb _ ?_⟩
  · subst h; rfl
  · rw [if_pos (List.length_pos_iff.2 h), h']; rfl
  · rw [if_pos (List.length_pos_iff.2 h), h']

/-- A selection out of range, and a choice with hidden candidates. -/
example : (2 : Nat) ≥ [5, 6].length ∧ takeRows [5, 6] [1, 0] = .ok [6, 5] := by decide

/-- A run with a rating and a correct choice. -/
example : trainRun (X := ℕ) (ρ := ℕ) "switch" false (.ok 0)
    [(⟨.ok [5, 6], .ok ([1], []), fun _ => .ok 0, fun x => x, .ok (), .ok (), .ok ()⟩, .ok 1),
     (⟨.ok [5, 6], .ok ([0, 1], []), fun _ => .ok 1, fun x => x, .ok (), .ok (), .ok ()⟩, .ok 2)] =
    .ok ([(-1, -1), (1, -1), (0, 1)], [0, 1, 2]) := by
  simp [trainRun, trainLoop, trainStep, stepSwitch, takeRows, npArgmax, argmaxFrom, choosePairs, Except.map,
    genPairsFromIdx, List.range_succ, correctFlag, pairQuery, absQuery, preference]
  norm_num

end Lop.Props
