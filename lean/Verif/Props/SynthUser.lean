import Verif.Proofs.SynthUser
import Verif.Model.Data
import Verif.Spec.Pairs
import Verif.Props.Pairs
import Verif.Props.Sampling
import Mathlib.Tactic.NormNum
import Mathlib.Tactic.Positivity

/-! # C60 synthetic users, C62 rating calibration -/

namespace Lop.Props

open Lop Lop.Spec

section C60

variable {X : Type*}

/-- C60: `PerfectUser.choose` returns the first position of an item of maximal value; an empty query
raises. -/
theorem C60_perfect_choice (f : X → ℝ) (query : List X) :
    (query = [] → perfectChoose f query = .error .valueError) ∧
    (query ≠ [] → ∃ b x, perfectChoose f query = .ok b ∧ query[b]? = some x ∧ (∀ y ∈ query, f y ≤ f x) ∧
      ∀ (j : Nat) y, j < b → query[j]? = some y → f y < f x) := by
  constructor
  · rintro rfl
    rfl
  · intro h
    obtain ⟨b, hb⟩ := npArgmax_isOk (l := query.map f) (by simpa using h)
    obtain ⟨m, h1, h2, h3⟩ := npArgmax_spec hb
    rw [List.getElem?_map, Option.map_eq_some_iff] at h1
    obtain ⟨x, hx, rfl⟩ := h1
    refine ⟨b, x, hb, hx, fun y hy => h2 _ (List.mem_map_of_mem hy), fun j y hj hy => ?_⟩
    exact h3 j (f y) hj (by rw [List.getElem?_map, hy]; rfl)

/-- The pairs of `choose_pairs`, for any way of choosing: the chosen item beats every other item exactly
once and nothing else is recorded. -/
theorem C60_pairs_of_choice (choose : List X → Except PyErr Nat) (query : List X) (best : Nat)
    (h : choose query = .ok best) :
    ∃ ps, choosePairs choose query = .ok ps ∧ (∀ p ∈ ps, winner p = best) ∧
      ps.map loser = (List.range query.length).filter (· ≠ best) := by
  refine ⟨_, by rw [choosePairs, h]; rfl, fun p hp => (C02_gen_pairs_irrefl _ _ p hp).1, ?_⟩
  have := congrArg (List.map Prod.snd) (C02_gen_pairs_exact best (List.range query.length))
  simpa [List.map_map, Function.comp_def] using this

/-- C60: the pairs of `PerfectUser.choose_pairs` are pairs the values agree with: there is exactly one
winner, it has maximal value, and each other item loses exactly once. -/
theorem C60_perfect_pairs (f : X → ℝ) (query : List X) (hq : query ≠ []) :
    ∃ ps best x, choosePairs (perfectChoose f) query = .ok ps ∧ query[best]? = some x ∧
      ps.map loser = (List.range query.length).filter (· ≠ best) ∧
      ∀ p ∈ ps, winner p = best ∧ ∃ y, query[loser p]? = some y ∧ f y ≤ f x := by
  obtain ⟨b, x, h1, h2, h3, -⟩ := (C60_perfect_choice f query).2 hq
  obtain ⟨ps, h4, h5, h6⟩ := C60_pairs_of_choice _ query b h1
  refine ⟨ps, b, x, h4, h2, h6, fun p hp => ⟨h5 p hp, ?_⟩⟩
  have hl : loser p ∈ ps.map loser := List.mem_map_of_mem hp
  rw [h6, List.mem_filter, List.mem_range] at hl
  exact ⟨query[loser p]'hl.1, List.getElem?_eq_getElem hl.1, h3 _ (List.getElem_mem _)⟩

/-- Three items, the second one best. -/
example : ∃ ps, choosePairs (perfectChoose fun x : ℝ => -(x - 5) ^ 2) [1, 4, 9] = .ok ps ∧ ps.length = 2 := by
  obtain ⟨ps, best, x, h1, h2, h3, -⟩ := C60_perfect_pairs (fun x : ℝ => -(x - 5) ^ 2) [1, 4, 9] (by simp)
  refine ⟨ps, h1, ?_⟩
  have hb : best < 3 := (List.getElem?_eq_some_iff.1 h2).1
  rw [← List.length_map (f := loser), h3]
  interval_cases best <;> rfl

/-- C60: `HumanChoiceUser.choose` always picks an existing item; the probability of item `i` is its
Boltzmann probability with respect to the utilities and precision `beta * k` (the offset `b` cancels);
`choose_pairs` records the pick as winner over each other item once. -/
theorem C60_human_choice (u : HumanUser) (f : X → ℝ) (query : List X) (hq : query ≠ []) :
    (∀ r : ℝ, 0 ≤ r → r < 1 → ∃ best < query.length, humanChoose u f r query = .ok best ∧
      ∃ ps, choosePairs (humanChoose u f r) query = .ok ps ∧ (∀ p ∈ ps, winner p = best) ∧
        ps.map loser = (List.range query.length).filter (· ≠ best)) ∧
    ∀ i : Fin query.length, MeasureTheory.volume {r : ℝ | 0 ≤ r ∧ r < 1 ∧ humanChoose u f r query = .ok i.1} =
      ENNReal.ofReal (boltzmann (fun i : Fin query.length => f query[i]) (u.beta * u.k) i) := by
  have hn : 0 < query.length := List.length_pos_iff.2 hq
  obtain ⟨h1, h2⟩ := C11_sample_law hn (fun i : Fin query.length => f query[i] * u.k + u.b) u.beta
  constructor
  · intro r h0 hr1
    obtain ⟨i, hi⟩ := h1 r h0 hr1
    exact ⟨i.1, i.2, hi, C60_pairs_of_choice _ query i.1 hi⟩
  · intro i
    have := h2 i
    rw [show {r : ℝ | 0 ≤ r ∧ r < 1 ∧ humanChoose u f r query = .ok i.1} = _ from rfl] 
    refine this.trans ?_
    congr 1
    have e1 := C11_softmax_is_boltzmann hn (fun i : Fin query.length => f query[i] * u.k + u.b) u.beta
    rw [C11_softmax_shift_invariant, C11_softmax_is_boltzmann hn] at e1
    have e2 := congrFun (Except.ok.inj e1) i
    rw [← e2]
    unfold boltzmann
    simp only [mul_assoc, mul_comm u.k]

/-- C60: all ratings lie strictly between 0 and 1, for every value, parameter and draw; a negative noise
level raises. -/
theorem C60_rating_bounds (f : X → ℝ) (x : X) (u : HumanUser) (z : ℝ) :
    (0 < perfectRate f x ∧ perfectRate f x < 1) ∧
    (u.sigma < 0 → humanRate u f x z = .error .valueError) ∧
    (0 ≤ u.sigma → ∃ r, humanRate u f x z = .ok r ∧ 0 < r ∧ r < 1) := by
  refine ⟨⟨sigmoid_pos _ _ _, sigmoid_lt_one _ _ _⟩, fun h => if_pos h, fun h => ?_⟩
  exact ⟨_, if_neg h.not_gt, sigmoid_pos _ _ _, sigmoid_lt_one _ _ _⟩

/-- C60: ratings of the `PerfectUser` are ordered exactly like the values. -/
theorem C60_perfect_rating_order (f : X → ℝ) (x y : X) :
    perfectRate f x < perfectRate f y ↔ f x < f y := by
  unfold perfectRate
  rw [sigmoid_lt_iff]
  constructor <;> intro h <;> linarith

/-- C60, noisy users: with equal noise draws the ratings are ordered like the values (slope positive). -/
theorem C60_human_rating_order_partial (u : HumanUser) (f : X → ℝ) (x y : X) (z rx ry : ℝ) (hk : 0 < u.k)
    (hx : humanRate u f x z = .ok rx) (hy : humanRate u f y z = .ok ry) : rx < ry ↔ f x < f y := by
  unfold humanRate at hx hy
  split at hx
  · cases hx
  · next h =>
    rw [if_neg h] at hy
    cases hx
    cases hy
    rw [sigmoid_lt_iff]
    simp only [one_mul, add_zero, add_lt_add_iff_right]
    exact mul_lt_mul_iff_left₀ hk

/-- C60 refuted for noisy users: whatever the values, with positive noise some draws rate `x` above `y`. -/
theorem C60_human_rating_order_counterexample (u : HumanUser) (hs : 0 < u.sigma) (f : X → ℝ) (x y : X) :
    ∃ zx zy rx ry, humanRate u f x zx = .ok rx ∧ humanRate u f y zy = .ok ry ∧ ry < rx := by
  refine ⟨(f y * u.k - f x * u.k + 1) / u.sigma, 0, _, _, if_neg hs.not_gt, if_neg hs.not_gt, ?_⟩
  rw [sigmoid_lt_iff, mul_div_cancel₀ _ hs.ne']
  linarith

/-- C60: ratings of synthetic users are never rejected by `add(type='abs')`: whatever the model holds,
adding one rating per new point raises nothing and stores one rating per point, unchanged if within
[0.001, 0.999]. -/
theorem C60_never_rejected {d : Nat} (pareto : Bool) (st : ModelState d ℝ ℝ) (pts : List (Fin d → ℝ))
    (rs : List ℝ) (hr : ∀ r ∈ rs, (∃ (f : (Fin d → ℝ) → ℝ) (x : Fin d → ℝ), r = perfectRate f x) ∨
      ∃ (u : HumanUser) (f : (Fin d → ℝ) → ℝ) (x : Fin d → ℝ) (z : ℝ), humanRate u f x z = .ok r) :
    (modelAdd pareto st pts (.absVec rs)).2 = none ∧
    ∃ new, (modelAdd pareto st pts (.absVec rs)).1.y.abs = some (st.y.abs.getD [] ++ new) ∧
      new.map Prod.snd = (List.range rs.length).map (· + (st.X.getD []).length) ∧
      new.map Prod.fst = rs.map clampRating ∧
      ∀ r ∈ rs, 1 / 1000 ≤ r → r ≤ 999 / 1000 → clampRating r = r := by
  have hb : ∀ r ∈ rs, 0 < r ∧ r < 1 := by
    intro r h
    rcases hr r h with ⟨f, x, rfl⟩ | ⟨u, f, x, z, hx⟩
    · exact (C60_rating_bounds f x {} 0).1
    · unfold humanRate at hx
      split at hx
      · cases hx
      · cases hx
        exact ⟨sigmoid_pos _ _ _, sigmoid_lt_one _ _ _⟩
  have hadd : ∀ y : Labels ℝ, ∀ n : Nat, addLabels y n (.absVec rs) = .ok (some { y with
      abs := appendOpt y.abs
        ((rs.zipIdx.map fun (a, i) => (a, i + n)).map fun r => (clampRating r.1, r.2)) }) := by
    intro y n
    change addAbs _ _ = _
    unfold addAbs
    rw [if_neg]
    rintro (h | h) <;>
    · rw [List.any_eq_true] at h
      obtain ⟨p, hp, hlt⟩ := h
      obtain ⟨⟨a, i⟩, hq, rfl⟩ := List.mem_map.1 hp
      have := hb a (by
        have := List.mem_zipIdx' hq
        rw [this.2]
        exact List.getElem_mem _)
      simp only [decide_eq_true_eq] at hlt
      linarith
  have hlist : ∀ n : Nat, ((rs.zipIdx.map fun (a, i) => (a, i + n)).map fun r => (clampRating r.1, r.2)).map
      Prod.snd = (List.range rs.length).map (· + n) ∧
      ((rs.zipIdx.map fun (a, i) => (a, i + n)).map fun r => (clampRating r.1, r.2)).map Prod.fst =
        rs.map clampRating := by
    intro n
    constructor
    · rw [List.map_map, List.map_map, List.range_eq_range', ← List.zipIdx_map_snd 0 rs, List.map_map]
      rfl
    · rw [List.map_map, List.map_map]
      conv_rhs => rw [← List.zipIdx_map_fst 0 rs, List.map_map]
      rfl
  have hclamp : ∀ r ∈ rs, 1 / 1000 ≤ r → r ≤ 999 / 1000 → clampRating r = r := by
    intro r _ h1 h2
    unfold clampRating
    rw [if_neg h1.not_gt, if_neg (not_lt.2 h2)]
  unfold modelAdd
  simp only [hadd]
  refine ⟨trivial, _, ?_, (hlist _).1, (hlist _).2, hclamp⟩
  split
  · split <;> rfl
  · rfl

end C60

section C62

/-- C62: with rating range ends strictly between 0 and 1 and utilities `fMin < fMax`, the calibration maps
the lowest utility to the bottom and the highest to the top of the range; with `bot < top` it is strictly
increasing in between, so exactly the utilities between the two are rated inside the range. -/
theorem C62_calibration (bot top fMin fMax : ℝ) (hb0 : 0 < bot) (hb1 : bot < 1) (ht0 : 0 < top) (ht1 : top < 1)
    (hf : fMin < fMax) :
    ∃ k b, getKB bot top fMin fMax = some (k, b) ∧ sigmoid (fMin * k + b) 1 0 = bot ∧
      sigmoid (fMax * k + b) 1 0 = top ∧
      (bot < top → 0 < k ∧ ∀ f, (bot ≤ sigmoid (f * k + b) 1 0 ↔ fMin ≤ f) ∧
        (sigmoid (f * k + b) 1 0 ≤ top ↔ f ≤ fMax)) := by
  have hd : fMax - fMin ≠ 0 := by linarith
  refine ⟨_, _, if_neg hd, ?_⟩
  set a := Real.log bot - Real.log (1 - bot) with ha
  set c := Real.log top - Real.log (1 - top) with hc
  set k := (c - a) / (fMax - fMin) with hk
  have e1 : fMin * k + (a - k * fMin) = a := by ring
  have e2 : fMax * k + (a - k * fMin) = c := by
    have : k * (fMax - fMin) = c - a := div_mul_cancel₀ _ hd
    linarith
  have s1 : sigmoid (fMin * k + (a - k * fMin)) 1 0 = bot :=
    sigmoid_logit bot hb0 hb1 _ _ _ (by rw [one_mul, add_zero, e1])
  have s2 : sigmoid (fMax * k + (a - k * fMin)) 1 0 = top :=
    sigmoid_logit top ht0 ht1 _ _ _ (by rw [one_mul, add_zero, e2])
  refine ⟨s1, s2, fun hbt => ?_⟩
  have hac : a < c := by
    have := hbt
    rw [← s1, ← s2, sigmoid_lt_iff, one_mul, one_mul, add_zero, add_zero, e1, e2] at this
    exact this
  have hkp : 0 < k := div_pos (by linarith) (by linarith)
  refine ⟨hkp, fun f => ⟨?_, ?_⟩⟩
  · conv_lhs => rw [← s1, sigmoid_le_iff]
    simp only [one_mul, add_zero, add_le_add_iff_right]
    exact mul_le_mul_iff_left₀ hkp
  · conv_lhs => rw [← s2, sigmoid_le_iff]
    simp only [one_mul, add_zero, add_le_add_iff_right]
    exact mul_le_mul_iff_left₀ hkp

/-- The rejected case: with a single observed utility the slope is not finite. -/
theorem C62_calibration_degenerate (bot top f : ℝ) : getKB bot top f f = none := by
  unfold getKB
  simp

/-- The default range 0.1 to 0.9 and utilities 2 to 5. -/
example : ∃ k b, getKB (1 / 10) (9 / 10) 2 5 = some (k, b) ∧ sigmoid (2 * k + b) 1 0 = 1 / 10 ∧ 0 < k := by
  obtain ⟨k, b, h1, h2, -, h3⟩ := C62_calibration (1 / 10) (9 / 10) 2 5 (by norm_num) (by norm_num)
    (by norm_num) (by norm_num) (by norm_num)
  exact ⟨k, b, h1, h2, (h3 (by norm_num)).1⟩

/-- C62 refuted for `HumanChoiceUser`: after a successful `learn_beta` the slope and offset are 4 and 0
whatever the rewards and the requested range were, so the noise-free rating of a utility is at the bottom of
the range only if it happens to be a quarter of its logit. -/
theorem C62_learn_beta_counterexample {X : Type*} (u u' : HumanUser) (ys : List ℝ) (Q : Nat) (ob os : Nat → MinRes)
    (h : humanLearnBeta u ys Q ob os = (u', none)) (f : X → ℝ) (x : X) (hs : 0 ≤ u'.sigma) (hb0 : 0 < u.bot)
    (hb1 : u.bot < 1) :
    u'.k = 4 ∧ u'.b = 0 ∧ humanRate u' f x 0 = .ok (perfectRate f x) ∧
    (humanRate u' f x 0 = .ok u.bot ↔ f x = (Real.log u.bot - Real.log (1 - u.bot)) / 4) := by
  have hkb : u'.k = 4 ∧ u'.b = 0 := by
    unfold humanLearnBeta at h
    split at h
    · cases h
    · simp only at h
      split at h
      · cases h
      · split at h
        · cases h
        · split at h
          · cases h
          · cases h
            exact ⟨rfl, rfl⟩
  have hrate : humanRate u' f x 0 = .ok (perfectRate f x) := by
    unfold humanRate perfectRate sigmoid
    rw [if_neg hs.not_gt, hkb.1, hkb.2]
    congr 4
    ring
  refine ⟨hkb.1, hkb.2, hrate, ?_⟩
  rw [hrate]
  constructor
  · intro h1
    have h1 := Except.ok.inj h1
    have h2 : sigmoid ((Real.log u.bot - Real.log (1 - u.bot)) / 4) 4 0 = u.bot :=
      sigmoid_logit _ hb0 hb1 _ _ _ (by ring)
    unfold perfectRate at h1
    rw [← h2] at h1
    have h3 := (sigmoid_le_iff _ _ _ _ _ _).1 h1.le
    have h4 := (sigmoid_le_iff _ _ _ _ _ _).1 h1.ge
    linarith
  · intro h1
    unfold perfectRate
    rw [h1, sigmoid_logit u.bot hb0 hb1 _ _ _ (by ring)]

/-- C62 refuted: the learned `beta` has no influence on ratings. -/
theorem C62_beta_unused_counterexample {X : Type*} (u : HumanUser) (beta : ℝ) (f : X → ℝ) (x : X) (z : ℝ) :
    humanRate { u with beta := beta } f x z = humanRate u f x z := rfl

/-- C62: after a successful `HumanChoiceUser2.learn_beta` the noise-free ratings of all observed utilities lie in
the requested range, and both ends are attained. -/
theorem C62_learn2 (u u' : HumanUser) (envs : List (List (List ℝ))) (samp : Nat → Nat → Nat → List Nat)
    (os ob : List (Option (List ℝ)) → ℝ) (h : hcu2Learn u envs samp os ob = .ok (some u'))
    (hb0 : 0 < u.bot) (hbt : u.bot < u.top) (ht1 : u.top < 1) (hs : 0 ≤ u'.sigma) :
    (∀ env ∈ envs, ∀ prob ∈ env, ∀ y ∈ prob, ∃ r, humanRate u' id y 0 = .ok r ∧ u.bot ≤ r ∧ r ≤ u.top) ∧
    (∃ env ∈ envs, ∃ prob ∈ env, ∃ y ∈ prob, humanRate u' id y 0 = .ok u.bot) ∧
    ∃ env ∈ envs, ∃ prob ∈ env, ∃ y ∈ prob, humanRate u' id y 0 = .ok u.top := by
  unfold hcu2Learn at h
  cases hm : minPaths envs with
  | error e => rw [hm] at h; cases h
  | ok m =>
    rw [hm] at h
    cases hr : utilRange envs with
    | error e => simp only [bind, Except.bind, hr] at h; cases h
    | ok r =>
      obtain ⟨lo, hi⟩ := r
      simp only [bind, Except.bind, hr] at h
      obtain ⟨hlo, hhi, hall⟩ := utilRange_spec hr
      have hlohi : lo ≤ hi := (hall _ hlo).2
      rcases hlohi.eq_or_lt with heq | hlt
      · subst heq
        rw [C62_calibration_degenerate] at h
        simp only [Option.map_none] at h
        split at h
        · cases h
        · split at h <;> cases h
      · obtain ⟨k, b, hkb, h1, h2, h3⟩ := C62_calibration u.bot u.top lo hi hb0 (hbt.trans ht1)
          (hb0.trans hbt) ht1 hlt
        rw [hkb] at h
        simp only [Option.getD_some, Option.map_some] at h
        cases hF : calibMatrix envs k b (samp m) with
        | error e => rw [hF] at h; cases h
        | ok F =>
          rw [hF] at h
          simp only at h
          split at h
          · cases h
          cases h
          have hrate : ∀ y : ℝ, humanRate { u with sigma := os F, beta := ob F, k := k, b := b } id y 0 =
              .ok (sigmoid (y * k + b) 1 0) := by
            intro y
            unfold humanRate
            rw [if_neg hs.not_gt]
            simp
          have hmem : ∀ y, y ∈ envs.flatMap (fun e => e.flatMap id) ↔ ∃ env ∈ envs, ∃ prob ∈ env, y ∈ prob := by
            intro y
            simp
          refine ⟨fun env he prob hp y hy => ⟨_, hrate y, ?_, ?_⟩, ?_, ?_⟩
          · exact ((h3 hbt).2 y).1.2 (hall y ((hmem y).2 ⟨env, he, prob, hp, hy⟩)).1
          · exact ((h3 hbt).2 y).2.2 (hall y ((hmem y).2 ⟨env, he, prob, hp, hy⟩)).2
          · obtain ⟨env, he, prob, hp, hy⟩ := (hmem lo).1 hlo
            exact ⟨env, he, prob, hp, lo, hy, by rw [hrate, h1]⟩
          · obtain ⟨env, he, prob, hp, hy⟩ := (hmem hi).1 hhi
            exact ⟨env, he, prob, hp, hi, hy, by rw [hrate, h2]⟩

/-- C62: an environment without problems or a problem without paths is refused with `ValueError`. -/
theorem C62_learn2_empty (u : HumanUser) (envs : List (List (List ℝ))) (samp : Nat → Nat → Nat → List Nat)
    (os ob : List (Option (List ℝ)) → ℝ) (h : ∃ env ∈ envs, env = [] ∨ [] ∈ env) :
    hcu2Learn u envs samp os ob = .error .valueError := by
  have hmin : ∀ l : List Nat, ∀ e, pyMinNat l = .error e → e = .valueError := by
    intro l e hl
    cases l with
    | nil => simpa [pyMinNat, eq_comm] using hl
    | cons a l => simp [pyMinNat] at hl
  have hmap : ∀ (l : List (List (List ℝ))) (e : PyErr),
      l.mapM (fun env => pyMinNat (env.map List.length)) = .error e → e = .valueError := by
    intro l
    induction l with
    | nil => intro e he; simp [pure, Except.pure] at he
    | cons a l ih =>
      intro e he
      rw [List.mapM_cons] at he
      cases ha : pyMinNat (a.map List.length) with
      | error e' =>
        simp only [ha, bind, Except.bind] at he
        cases he
        exact hmin _ _ ha
      | ok v =>
        cases hl : l.mapM (fun env => pyMinNat (env.map List.length)) with
        | error e' =>
          simp only [ha, hl, bind, Except.bind] at he
          cases he
          exact ih _ hl
        | ok w =>
          simp only [ha, hl, bind, Except.bind, pure, Except.pure] at he
          cases he
  have hmp : ∀ e, minPaths envs = .error e → e = .valueError := by
    intro e he
    unfold minPaths at he
    cases h1 : envs.mapM (fun env => pyMinNat (env.map List.length)) with
    | error e' =>
      simp only [h1, bind, Except.bind] at he
      cases he
      exact hmap _ _ h1
    | ok v =>
      cases h2 : pyMinNat v with
      | error e' =>
        simp only [h1, h2, bind, Except.bind] at he
        cases he
        exact hmin _ _ h2
      | ok w =>
        simp only [h1, h2, bind, Except.bind, pure, Except.pure] at he
        cases he
  have hr : utilRange envs = .error .valueError := by
    unfold utilRange
    refine if_pos ?_
    obtain ⟨env, he, h⟩ := h
    rw [List.any_eq_true]
    refine ⟨env, he, ?_⟩
    rcases h with rfl | h
    · rfl
    · rw [Bool.or_eq_true, List.any_eq_true]
      exact .inr ⟨[], h, rfl⟩
  unfold hcu2Learn
  cases hm : minPaths envs with
  | error e => rw [hmp e hm]; rfl
  | ok m => simp only [hr, bind, Except.bind]

/-- One of two problems without paths. -/
example : ∃ env ∈ ([[[1, 2], []]] : List (List (List ℝ))), env = [] ∨ [] ∈ env :=
  ⟨[[1, 2], []], by simp, by simp⟩

end C62

end Lop.Props
