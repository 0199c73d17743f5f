import Verif.Spec.ManyQuestions
import Verif.Proofs.Frequency
import Verif.Proofs.Truth
import Mathlib.Analysis.Calculus.Deriv.MeanValue
import Mathlib.Analysis.SpecialFunctions.Log.Deriv

/-! # Helper lemmas: answers to many questions -/

namespace Lop

open Lop.Spec Matrix

variable {n k : Nat}

/-- The point the answer puts below the other. -/
def loserOf (p : IPair n) : Fin n := if p.dk = 1 then p.u else p.v

/-- The point the answer puts above the other. -/
def winnerOf (p : IPair n) : Fin n := if p.dk = 1 then p.v else p.u

theorem putsAbove_iff {p : IPair n} (hp : p.dk = 1 ∨ p.dk = -1) (u v : Fin n) :
    PutsAbove u v p ↔ loserOf p = u ∧ winnerOf p = v := by
  rcases hp with h | h <;> simp [PutsAbove, loserOf, winnerOf, h]
  tauto

/-- A sum over the answers is a sum over the pairs of points. -/
theorem sum_by_pairs (h : Fin n → Fin n → ℝ) (h0 : ∀ a, h a a = 0) (y : List (IPair n))
    (hy : ∀ p ∈ y, p.dk = 1 ∨ p.dk = -1) :
    (y.map fun p => h (loserOf p) (winnerOf p)).sum =
      ∑ e ∈ pointPairs n, (timesAbove y e.1 e.2 * h e.1 e.2 + timesAbove y e.2 e.1 * h e.2 e.1) := by
  induction y with
  | nil => simp [timesAbove]
  | cons p y ih =>
    rw [List.map_cons, List.sum_cons, ih fun q hq => hy q (List.mem_cons_of_mem _ hq)]
    have hp := putsAbove_iff (hy p List.mem_cons_self)
    have key : h (loserOf p) (winnerOf p) = ∑ e ∈ pointPairs n,
        ((if loserOf p = e.1 ∧ winnerOf p = e.2 then 1 else 0) * h e.1 e.2 +
          (if loserOf p = e.2 ∧ winnerOf p = e.1 then 1 else 0) * h e.2 e.1) := by
      rcases lt_trichotomy (loserOf p) (winnerOf p) with hl | hl | hl
      · rw [Finset.sum_eq_single (loserOf p, winnerOf p)]
        · simp only [and_self, if_true, one_mul]
          rw [if_neg fun h => hl.ne h.1, zero_mul, add_zero]
        · rintro ⟨a, b⟩ he hne
          have hab : a < b := (Finset.mem_filter.1 he).2
          rw [if_neg fun h => hne (Prod.ext h.1.symm h.2.symm), if_neg fun h => ?_]
          · ring
          · simp only at h
            exact absurd (hl.trans_le (h.2.le.trans (hab.le.trans h.1.symm.le))) (lt_irrefl _)
        · intro hn
          exact absurd (show _ ∈ pointPairs n from Finset.mem_filter.2 ⟨Finset.mem_univ _, hl⟩) hn
      · rw [hl, h0, Finset.sum_eq_zero]
        rintro ⟨a, b⟩ he
        have hab : a < b := (Finset.mem_filter.1 he).2
        simp only
        rw [if_neg fun h => hab.ne (h.1.symm.trans h.2), if_neg fun h => hab.ne (h.2.symm.trans h.1)]
        ring
      · rw [Finset.sum_eq_single (winnerOf p, loserOf p)]
        · simp only [and_self, if_true, one_mul]
          rw [if_neg fun h => hl.ne h.2, zero_mul, zero_add]
        · rintro ⟨a, b⟩ he hne
          have hab : a < b := (Finset.mem_filter.1 he).2
          rw [if_neg fun h => ?_, if_neg fun h => hne (Prod.ext h.2.symm h.1.symm)]
          · ring
          · simp only at h
            exact absurd (hl.trans_le (h.1.le.trans (hab.le.trans h.2.symm.le))) (lt_irrefl _)
        · intro hn
          exact absurd (show _ ∈ pointPairs n from Finset.mem_filter.2 ⟨Finset.mem_univ _, hl⟩) hn
    rw [key, ← Finset.sum_add_distrib]
    refine Finset.sum_congr rfl fun e _ => ?_
    simp only [timesAbove, List.countP_cons, hp, decide_eq_true_eq]
    push_cast
    split_ifs <;> ring

theorem pairZ_winner (sigma : ℝ) (F : Fin n → ℝ) {p : IPair n} (hp : p.dk = 1 ∨ p.dk = -1) :
    Phi (pairZ sigma F p) = chanceAbove sigma F (loserOf p) (winnerOf p) := by
  rcases hp with h | h <;> simp [pairZ, chanceAbove, loserOf, winnerOf, h]

theorem chanceAbove_swap (sigma : ℝ) (F : Fin n → ℝ) (u v : Fin n) : chanceAbove sigma F v u = 1 - chanceAbove sigma F u v := by
  rw [chanceAbove, chanceAbove, ← Phi_neg]
  congr 1
  ring

theorem timesAsked_eq {u v : Fin n} (huv : u ≠ v) (y : List (IPair n)) :
    timesAsked y u v = timesAbove y u v + timesAbove y v u := by
  induction y with
  | nil => rfl
  | cons p y ih =>
    simp only [timesAsked, timesAbove, List.countP_cons] at ih ⊢
    rw [ih]
    have : (if AboutPair u v p then 1 else 0) = (if PutsAbove u v p then 1 else 0) + if PutsAbove v u p then 1 else 0 := by
      by_cases h1 : PutsAbove u v p
      · have h2 : ¬ PutsAbove v u p := by
          unfold PutsAbove at h1 ⊢
          rcases h1 with ⟨a, b, c⟩ | ⟨a, b, c⟩ <;> simp [a, b, c, huv, huv.symm]
        have h3 : AboutPair u v p := by
          unfold PutsAbove at h1
          unfold AboutPair
          tauto
        simp [h1, h2, h3]
      · by_cases h2 : PutsAbove v u p
        · have h3 : AboutPair u v p := by
            unfold PutsAbove at h2
            unfold AboutPair
            tauto
          simp [h1, h2, h3]
        · have h3 : ¬ AboutPair u v p := by
            unfold PutsAbove at h1 h2
            unfold AboutPair
            tauto
          simp [h1, h2, h3]
    simp only [decide_eq_true_eq]
    omega

/-- Pinsker's inequality for two outcomes, one side. -/
theorem pinsker_up {a b p : ℝ} (ha : 0 ≤ a) (hb : 0 ≤ b) (hN : 0 < a + b) (hp1 : p < 1) (hq : a / (a + b) ≤ p) :
    a * Real.log p + b * Real.log (1 - p) + 2 * (a + b) * (p - a / (a + b)) ^ 2 ≤
      a * Real.log (a / (a + b)) + b * Real.log (1 - a / (a + b)) := by
  set q := a / (a + b) with hqd
  have hq0 : 0 ≤ q := by positivity
  have haq : a = (a + b) * q := by rw [hqd]; field_simp
  have hanti : AntitoneOn (fun t => a * Real.log t + b * Real.log (1 - t) + 2 * (a + b) * (t - q) ^ 2) (Set.Icc q p) := by
    refine antitoneOn_of_deriv_nonpos (convex_Icc _ _) ?_ ?_ ?_
    · refine ((ContinuousOn.add ?_ ?_).add (by fun_prop))
      · rcases ha.eq_or_lt with h | h
        · rw [← h]
          simp only [zero_mul]
          exact continuousOn_const
        · have : 0 < q := by positivity
          exact continuousOn_const.mul (Real.continuousOn_log.mono fun t ht => (this.trans_le ht.1).ne')
      · refine continuousOn_const.mul (Real.continuousOn_log.comp (by fun_prop) fun t ht => ?_)
        have := ht.2
        simp only [Set.mem_compl_iff, Set.mem_singleton_iff]
        intro h
        linarith
    · intro t ht
      rw [interior_Icc] at ht
      have h0 : t ≠ 0 := (hq0.trans_lt ht.1).ne'
      have h1 : 1 - t ≠ 0 := by
        intro h
        linarith [ht.2]
      exact ((((Real.hasDerivAt_log h0).const_mul a).add (((Real.hasDerivAt_log h1).comp t
        ((hasDerivAt_id t).const_sub 1)).const_mul b)).add
        ((((hasDerivAt_id t).sub_const q).pow 2).const_mul (2 * (a + b)))).differentiableAt.differentiableWithinAt
    · intro t ht
      rw [interior_Icc] at ht
      have h0 : 0 < t := hq0.trans_lt ht.1
      have h1 : 0 < 1 - t := by linarith [ht.2]
      have hd := ((((Real.hasDerivAt_log h0.ne').const_mul a).add (((Real.hasDerivAt_log h1.ne').comp t
        ((hasDerivAt_id t).const_sub 1)).const_mul b)).add
        ((((hasDerivAt_id t).sub_const q).pow 2).const_mul (2 * (a + b))))
      have e : deriv (fun t => a * Real.log t + b * Real.log (1 - t) + 2 * (a + b) * (t - q) ^ 2) t = _ := hd.deriv
      rw [e]
      have hbq : b = (a + b) * (1 - q) := by linarith
      have : a * t⁻¹ + b * ((1 - t)⁻¹ * -1) + 2 * (a + b) * ((2 : Nat) * (t - q) ^ (2 - 1) * 1) =
          -((a + b) * (t - q) * (1 - 4 * (t * (1 - t))) / (t * (1 - t))) := by
        rw [show a * t⁻¹ = (a + b) * q * t⁻¹ by rw [← haq], show b * ((1 - t)⁻¹ * -1) = (a + b) * (1 - q) * ((1 - t)⁻¹ * -1) by
          rw [← hbq]]
        push_cast
        field_simp
        ring
      simp only [id] at this ⊢
      rw [this]
      have h3 : 0 ≤ 1 - 4 * (t * (1 - t)) := by nlinarith [sq_nonneg (2 * t - 1)]
      have h4 : 0 ≤ t - q := by linarith [ht.1]
      have := mul_pos h0 h1
      exact neg_nonpos.2 (by positivity)
  have := hanti (Set.left_mem_Icc.2 hq) (Set.right_mem_Icc.2 hq) hq
  simpa using this

/-- Pinsker's inequality for two outcomes. -/
theorem pinsker_two {a b p : ℝ} (ha : 0 ≤ a) (hb : 0 ≤ b) (hN : 0 < a + b) (hp0 : 0 < p) (hp1 : p < 1) :
    a * Real.log p + b * Real.log (1 - p) + 2 * (a + b) * (p - a / (a + b)) ^ 2 ≤
      a * Real.log (a / (a + b)) + b * Real.log (1 - a / (a + b)) := by
  rcases le_total (a / (a + b)) p with h | h
  · exact pinsker_up ha hb hN hp1 h
  · have e : b / (b + a) = 1 - a / (a + b) := by
      rw [add_comm b a]
      field_simp
      ring
    have := pinsker_up hb ha (by linarith) (show 1 - p < 1 by linarith) (by rw [e]; linarith)
    rw [e, sub_sub_cancel, sub_sub_cancel] at this
    nlinarith [this]

/-- The loss of a guess at the share of the answers is at most its χ². -/
theorem chi_two {a b p : ℝ} (ha : 0 ≤ a) (hb : 0 ≤ b) (hN : 0 < a + b) (hp0 : 0 < p) (hp1 : p < 1) :
    a * Real.log (a / (a + b)) + b * Real.log (1 - a / (a + b)) ≤
      a * Real.log p + b * Real.log (1 - p) + (a - (a + b) * p) ^ 2 / ((a + b) * (p * (1 - p))) := by
  have hp1' : 0 < 1 - p := by linarith
  have eb : 1 - a / (a + b) = b / (a + b) := by field_simp; ring
  have h1 : a * Real.log (a / (a + b)) ≤ a * Real.log p + a * (a / (a + b) / p - 1) := by
    rcases ha.eq_or_lt with h | h
    · simp [← h]
    · have := Real.log_le_sub_one_of_pos (show 0 < a / (a + b) / p by positivity)
      rw [Real.log_div (by positivity) hp0.ne'] at this
      nlinarith
  have h2 : b * Real.log (1 - a / (a + b)) ≤ b * Real.log (1 - p) + b * (b / (a + b) / (1 - p) - 1) := by
    rw [eb]
    rcases hb.eq_or_lt with h | h
    · simp [← h]
    · have := Real.log_le_sub_one_of_pos (show 0 < b / (a + b) / (1 - p) by positivity)
      rw [Real.log_div (by positivity) hp1'.ne'] at this
      nlinarith
  have e : a * (a / (a + b) / p - 1) + b * (b / (a + b) / (1 - p) - 1) =
      (a - (a + b) * p) ^ 2 / ((a + b) * (p * (1 - p))) := by
    field_simp
    ring
  linarith

/-- What a better fit of the answers to one question is worth. -/
theorem share_regret {a b p r : ℝ} (ha : 0 ≤ a) (hb : 0 ≤ b) (hp0 : 0 < p) (hp1 : p < 1) (hr0 : 0 < r) (hr1 : r < 1) :
    2 * (a + b) * (p - a / (a + b)) ^ 2 ≤ a * (Real.log r - Real.log p) + b * (Real.log (1 - r) - Real.log (1 - p)) +
      (a - (a + b) * r) ^ 2 / ((a + b) * (r * (1 - r))) := by
  rcases (add_nonneg ha hb).eq_or_lt with h | hN
  · have h1 : a = 0 := by linarith
    have h2 : b = 0 := by linarith
    simp [h1, h2]
  · have h1 := pinsker_two ha hb hN hp0 hp1
    have h2 := chi_two ha hb hN hr0 hr1
    linarith

theorem chanceAbove_mem (sigma : ℝ) (F : Fin n → ℝ) (u v : Fin n) : 0 < chanceAbove sigma F u v ∧ chanceAbove sigma F u v < 1 :=
  ⟨Phi_pos _, Phi_lt_one _⟩

theorem map_sum_sub {α : Type} (l : List α) (f g : α → ℝ) : (l.map f).sum - (l.map g).sum = (l.map fun x => f x - g x).sum := by
  induction l with
  | nil => simp
  | cons x l ih => simp only [List.map_cons, List.sum_cons, ← ih]; ring

/-- The values of largest posterior density are close to the shares of the answers, if any values are. -/
theorem mode_shares {sigma : ℝ} {y : List (IPair n)} (hy : ∀ p ∈ y, p.dk = 1 ∨ p.dk = -1) {m f : Fin n → ℝ} {c : ℝ}
    (hc : pairLogLik sigma y f - pairLogLik sigma y m ≤ c) :
    ∑ e ∈ pointPairs n, 2 * timesAsked y e.1 e.2 *
      (chanceAbove sigma m e.1 e.2 - timesAbove y e.1 e.2 / timesAsked y e.1 e.2) ^ 2 ≤ c + chiSquare sigma y f := by
  have e : pairLogLik sigma y f - pairLogLik sigma y m = ∑ e ∈ pointPairs n,
      (timesAbove y e.1 e.2 * (Real.log (chanceAbove sigma f e.1 e.2) - Real.log (chanceAbove sigma m e.1 e.2)) +
        timesAbove y e.2 e.1 * (Real.log (chanceAbove sigma f e.2 e.1) - Real.log (chanceAbove sigma m e.2 e.1))) := by
    rw [← sum_by_pairs (fun a b => Real.log (chanceAbove sigma f a b) - Real.log (chanceAbove sigma m a b))
      (fun a => by simp [chanceAbove]) y hy, pairLogLik, pairLogLik, map_sum_sub]
    exact congrArg List.sum (List.map_congr_left fun p hp => by
      rw [pairZ_winner sigma f (hy p hp), pairZ_winner sigma m (hy p hp)])
  refine le_trans ?_ (add_le_add_left hc _)
  rw [e, chiSquare, ← Finset.sum_add_distrib]
  refine Finset.sum_le_sum fun e he => ?_
  have hne : e.1 ≠ e.2 := (Finset.mem_filter.1 he).2.ne
  obtain ⟨p0, p1⟩ := chanceAbove_mem sigma m e.1 e.2
  obtain ⟨r0, r1⟩ := chanceAbove_mem sigma f e.1 e.2
  have := share_regret (a := timesAbove y e.1 e.2) (b := timesAbove y e.2 e.1) (by positivity) (by positivity) p0 p1 r0 r1
  rw [timesAsked_eq hne, chanceAbove_swap sigma f e.1 e.2, chanceAbove_swap sigma m e.1 e.2]
  push_cast
  exact this

/-! ## Random answers -/

section
variable {sigma : ℝ} {qs : Fin k → Fin n × Fin n} {F : Fin n → ℝ}

theorem ansZ_eq (i : Fin k) (b : Bool) :
    Phi (ansZ sigma qs F i b) = if b then chanceAbove sigma F (qs i).1 (qs i).2 else chanceAbove sigma F (qs i).2 (qs i).1 := by
  have e : ∀ x : ℝ, x * isqrt2sig sigma = x / (Real.sqrt 2 * sigma) := by
    intro x
    rw [isqrt2sig, mul_comm sigma]
    ring
  cases b
  · simp only [ansZ, Bool.false_eq_true, if_false, chanceAbove, e]
    congr 1
    ring
  · simp only [ansZ, if_true, chanceAbove, e]
    congr 1
    ring

theorem countP_ofFn {α : Type} (P : α → Bool) (f : Fin k → α) :
    ((List.ofFn f).countP P : ℝ) = ∑ i, if P (f i) then (1 : ℝ) else 0 := by
  induction k with
  | zero => simp
  | succ k ih =>
    rw [List.ofFn_succ, List.countP_cons, Fin.sum_univ_succ, ← ih]
    push_cast
    split_ifs <;> ring

theorem about_answer (u v : Fin n) (i : Fin k) (b : Bool) :
    AboutPair u v ⟨if b then 1 else -1, (qs i).1, (qs i).2⟩ ↔ qs i = (u, v) ∨ qs i = (v, u) := by
  cases b <;> simp [AboutPair, Prod.ext_iff]

/-- Deviation of one answer from what is expected. -/
noncomputable def answerDev (sigma : ℝ) (qs : Fin k → Fin n × Fin n) (F : Fin n → ℝ) (u v : Fin n) (i : Fin k) (b : Bool) : ℝ :=
  (if PutsAbove u v ⟨if b then 1 else -1, (qs i).1, (qs i).2⟩ then 1 else 0) -
    (if qs i = (u, v) ∨ qs i = (v, u) then 1 else 0) * chanceAbove sigma F u v

theorem answerDev_sum (u v : Fin n) (a : Fin k → Bool) :
    (timesAbove (answerLabels qs a) u v - timesAsked (answerLabels qs a) u v * chanceAbove sigma F u v : ℝ) =
      ∑ i, answerDev sigma qs F u v i (a i) := by
  rw [timesAbove, timesAsked, answerLabels, countP_ofFn, countP_ofFn, Finset.sum_mul, ← Finset.sum_sub_distrib]
  refine Finset.sum_congr rfl fun i _ => ?_
  simp only [decide_eq_true_eq, about_answer, answerDev]

theorem answerDev_moments {u v : Fin n} (huv : u ≠ v) (i : Fin k) :
    ∑ b, Phi (ansZ sigma qs F i b) * answerDev sigma qs F u v i b = 0 ∧
    ∑ b, Phi (ansZ sigma qs F i b) * (answerDev sigma qs F u v i b * answerDev sigma qs F u v i b) =
      (if qs i = (u, v) ∨ qs i = (v, u) then 1 else 0) * (chanceAbove sigma F u v * (1 - chanceAbove sigma F u v)) := by
  simp only [Fintype.sum_bool, ansZ_eq, if_true, Bool.false_eq_true, if_false]
  by_cases h1 : qs i = (u, v)
  · have t : answerDev sigma qs F u v i true = 1 - chanceAbove sigma F u v := by
      simp [answerDev, h1, PutsAbove]
    have f : answerDev sigma qs F u v i false = 0 - chanceAbove sigma F u v := by
      simp [answerDev, h1, PutsAbove, huv]
    rw [t, f, h1, chanceAbove_swap sigma F u v]
    simp only [true_or, if_true]
    constructor <;> ring
  · by_cases h2 : qs i = (v, u)
    · have t : answerDev sigma qs F u v i true = 0 - chanceAbove sigma F u v := by
        simp [answerDev, h2, PutsAbove, huv.symm]
      have f : answerDev sigma qs F u v i false = 1 - chanceAbove sigma F u v := by
        simp [answerDev, h2, PutsAbove]
      rw [t, f, h2, chanceAbove_swap sigma F u v]
      simp only [or_true, if_true]
      constructor <;> ring
    · have h3 : ∀ b : Bool, answerDev sigma qs F u v i b = 0 := by
        intro b
        have : ¬ PutsAbove u v ⟨if b then 1 else -1, (qs i).1, (qs i).2⟩ := by
          intro h
          rcases h with ⟨-, a, c⟩ | ⟨-, a, c⟩
          · exact h1 (Prod.ext a c)
          · exact h2 (Prod.ext a c)
        simp [answerDev, this, h1, h2]
      simp [h3, h1, h2]

/-- The number of times a question is asked does not depend on the answers. -/
theorem timesAsked_answers (u v : Fin n) (a : Fin k → Bool) :
    (timesAsked (answerLabels qs a) u v : ℝ) = ∑ i, if qs i = (u, v) ∨ qs i = (v, u) then (1 : ℝ) else 0 := by
  rw [timesAsked, answerLabels, countP_ofFn]
  refine Finset.sum_congr rfl fun i _ => ?_
  simp only [decide_eq_true_eq, about_answer]

/-- Variance of the number of times `v` is put above `u`. -/
theorem answers_variance {u v : Fin n} (huv : u ≠ v) :
    ∑ a : Fin k → Bool, (∏ i, Phi (ansZ sigma qs F i (a i))) *
      (timesAbove (answerLabels qs a) u v - timesAsked (answerLabels qs a) u v * chanceAbove sigma F u v : ℝ) ^ 2 =
    (∑ i, if qs i = (u, v) ∨ qs i = (v, u) then (1 : ℝ) else 0) * (chanceAbove sigma F u v * (1 - chanceAbove sigma F u v)) := by
  simp_rw [answerDev_sum, sq]
  rw [expect_sum_mul _ (fun i => answers_one i) _ _ fun i => (answerDev_moments huv i).1, Finset.sum_mul]
  exact Finset.sum_congr rfl fun i _ => (answerDev_moments huv i).2

/-- The questions that are asked. -/
theorem asked_card :
    ((pointPairs n).filter fun e => ∃ i, qs i = (e.1, e.2) ∨ qs i = (e.2, e.1)).card ≤ differentQuestions qs := by
  classical
  unfold differentQuestions
  refine Finset.card_le_card_of_injOn (fun e => s(e.1, e.2)) ?_ ?_
  · intro e he
    obtain ⟨-, i, hi⟩ := Finset.mem_filter.1 he
    refine Finset.mem_coe.2 (Finset.mem_image.2 ⟨i, Finset.mem_univ _, ?_⟩)
    rcases hi with h | h
    · rw [h]
    · rw [h]
      exact Sym2.eq_swap
  · rintro ⟨a, b⟩ he ⟨c, d⟩ he' h
    have h1 : a < b := (Finset.mem_filter.1 (Finset.mem_filter.1 he).1).2
    have h2 : c < d := (Finset.mem_filter.1 (Finset.mem_filter.1 he').1).2
    rcases Sym2.eq_iff.1 h with ⟨h3, h4⟩ | ⟨h3, h4⟩
    · exact Prod.ext h3 h4
    · simp only at h3 h4
      exact absurd (h1.trans_le (h4.le.trans (h2.le.trans h3.symm.le))) (lt_irrefl _)

/-- The expected χ² of the true values is the number of different questions. -/
theorem chi_expected :
    ∑ a : Fin k → Bool, (∏ i, Phi (ansZ sigma qs F i (a i))) * chiSquare sigma (answerLabels qs a) F ≤
      differentQuestions qs := by
  classical
  have e : ∑ a : Fin k → Bool, (∏ i, Phi (ansZ sigma qs F i (a i))) * chiSquare sigma (answerLabels qs a) F =
      ∑ e ∈ pointPairs n, if ∃ i, qs i = (e.1, e.2) ∨ qs i = (e.2, e.1) then (1 : ℝ) else 0 := by
    simp only [chiSquare, Finset.mul_sum]
    rw [Finset.sum_comm]
    refine Finset.sum_congr rfl fun e he => ?_
    have hne : e.1 ≠ e.2 := (Finset.mem_filter.1 he).2.ne
    obtain ⟨p0, p1⟩ := chanceAbove_mem sigma F e.1 e.2
    have hv := answers_variance (sigma := sigma) (qs := qs) (F := F) hne
    simp_rw [timesAsked_answers] at hv ⊢
    set N := ∑ i, if qs i = (e.1, e.2) ∨ qs i = (e.2, e.1) then (1 : ℝ) else 0
    simp_rw [← mul_div_assoc]
    rw [← Finset.sum_div, hv]
    by_cases h : ∃ i, qs i = (e.1, e.2) ∨ qs i = (e.2, e.1)
    · rw [if_pos h]
      obtain ⟨i, hi⟩ := h
      have hN : 0 < N := Finset.sum_pos' (fun i _ => by positivity) ⟨i, Finset.mem_univ i, by rw [if_pos hi]; norm_num⟩
      have : 0 < 1 - chanceAbove sigma F e.1 e.2 := by linarith
      exact div_self (by positivity)
    · have hN : N = 0 := Finset.sum_eq_zero fun i _ => if_neg fun hi => h ⟨i, hi⟩
      rw [if_neg h, hN]
      simp
  rw [e, Finset.sum_boole]
  exact_mod_cast asked_card

end

end Lop
