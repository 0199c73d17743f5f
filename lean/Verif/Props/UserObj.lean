import Verif.Model.UserObj
import Verif.Props.Sampling
import Verif.Proofs.Basic
import Mathlib.Topology.Order.IntermediateValue
import Mathlib.Topology.Algebra.Order.Field
import Mathlib.Analysis.SpecialFunctions.Exp
import Mathlib.Analysis.SpecialFunctions.Log.Deriv
import Mathlib.Probability.Moments.Variance
import Mathlib.Probability.Independence.Basic
import Mathlib.MeasureTheory.Constructions.UnitInterval
import Mathlib.Tactic.Positivity
import Mathlib.Tactic.FieldSimp
import Mathlib.Tactic.Linarith

/-! # C79: the calibration objectives of the simulated user -/

namespace Lop.Props

open Lop Lop.Spec Finset

variable {n q : Nat}

/-- Denominator of the probability of a best alternative `k`. -/
theorem boltzmann_best (r : Fin q → ℝ) (b : ℝ) (k : Fin q) :
    boltzmann r b k = 1 / ∑ j, Real.exp (b * (r j - r k)) := by
  unfold boltzmann
  have h : ∀ j, Real.exp (b * (r j - r k)) = Real.exp (b * r j) / Real.exp (b * r k) := fun j => by
    rw [← Real.exp_sub]; ring_nf
  simp_rw [h, ← sum_div]
  rw [one_div_div]

theorem rowMax_boltzmann (r : Fin q → ℝ) {b : ℝ} (hb : 0 ≤ b) (k : Fin q) (hk : ∀ j, r j ≤ r k) :
    rowMax (boltzmann r b) = boltzmann r b k := by
  unfold rowMax
  rw [dif_pos ⟨k, mem_univ k⟩]
  refine le_antisymm (sup'_le _ _ fun j _ => ?_) (le_sup' _ (mem_univ k))
  unfold boltzmann
  refine div_le_div_of_nonneg_right (Real.exp_le_exp.2 (mul_le_mul_of_nonneg_left (hk j) hb)) ?_
  exact sum_nonneg fun _ _ => (Real.exp_pos _).le

theorem pMaxRows_eq (hn : 0 < n) (hq : 0 < q) (b : ℝ) (y : Fin n → Fin q → ℝ) :
    pMaxRows b y = .ok fun i => rowMax (boltzmann (y i) b) := by
  unfold pMaxRows
  rw [C11_softmax_rows_independent hn hq]
  rfl

theorem exists_best (hq : 0 < q) (r : Fin q → ℝ) : ∃ k, ∀ j, r j ≤ r k := by
  haveI : Nonempty (Fin q) := ⟨⟨0, hq⟩⟩
  obtain ⟨k, hk⟩ := Finite.exists_max r
  exact ⟨k, hk⟩

theorem best_bounds (r : Fin q → ℝ) {b : ℝ} (hb : 0 ≤ b) (k : Fin q) (hk : ∀ j, r j ≤ r k) :
    1 / (q : ℝ) ≤ boltzmann r b k ∧ boltzmann r b k ≤ 1 := by
  rw [boltzmann_best]
  have h1 : (1 : ℝ) ≤ ∑ j, Real.exp (b * (r j - r k)) := by
    have := single_le_sum (f := fun j => Real.exp (b * (r j - r k))) (fun j _ => (Real.exp_pos _).le)
      (mem_univ k)
    simpa using this
  have h2 : ∑ j, Real.exp (b * (r j - r k)) ≤ q := by
    calc _ ≤ ∑ _j : Fin q, (1 : ℝ) := sum_le_sum fun j _ => by
          rw [Real.exp_le_one_iff]
          exact mul_nonpos_of_nonneg_of_nonpos hb (sub_nonpos.2 (hk j))
      _ = q := by simp
  exact ⟨one_div_le_one_div_of_le (by linarith) h2, by rw [div_le_one (by linarith)]; exact h1⟩

/-- C79: `p_max` of a query is the choice probability of any best alternative, between one over the number of
alternatives and 1. -/
theorem C79_pmax (hn : 0 < n) (hq : 0 < q) (b : ℝ) (hb : 0 ≤ b) (y : Fin n → Fin q → ℝ) :
    ∃ pm, pMaxRows b y = .ok pm ∧ ∀ i, 1 / (q : ℝ) ≤ pm i ∧ pm i ≤ 1 ∧
      ∀ k, (∀ j, y i j ≤ y i k) → pm i = boltzmann (y i) b k := by
  refine ⟨_, pMaxRows_eq hn hq b y, fun i => ?_⟩
  obtain ⟨k, hk⟩ := exists_best hq (y i)
  have h := best_bounds (y i) hb k hk
  rw [← rowMax_boltzmann (y i) hb k hk] at h
  exact ⟨h.1, h.2, fun k hk => rowMax_boltzmann (y i) hb k hk⟩

/-- C79, error branch: no queries or queries without alternatives raise. -/
theorem C79_empty (b desired : ℝ) (y : Fin 0 → Fin q → ℝ) (y' : Fin n → Fin 0 → ℝ) (pf : Fin 0 → ℝ)
    (pf' : Fin n → ℝ) :
    sampledObjective b desired y pf = .error .valueError ∧ sampledObjective b desired y' pf' = .error .valueError ∧
    klObjective b desired y = .error .valueError ∧ klObjective b desired y' = .error .valueError := by
  have h1 : pHumanChoice2 y b = .error .valueError := by
    unfold pHumanChoice2
    rw [dif_neg]
    rintro ⟨⟨i, j⟩, -⟩
    exact i.elim0
  have h2 : pHumanChoice2 y' b = .error .valueError := by
    unfold pHumanChoice2
    rw [dif_neg]
    rintro ⟨⟨i, j⟩, -⟩
    exact j.elim0
  unfold sampledObjective klObjective pMaxRows
  rw [h1, h2]
  exact ⟨rfl, rfl, rfl, rfl⟩

theorem best_mono (r : Fin q → ℝ) {b b' : ℝ} (hbb : b ≤ b') (k : Fin q) (hk : ∀ j, r j ≤ r k) :
    boltzmann r b k ≤ boltzmann r b' k := by
  rw [boltzmann_best, boltzmann_best]
  refine one_div_le_one_div_of_le (sum_pos (fun j _ => Real.exp_pos _) ⟨k, mem_univ k⟩) ?_
  refine sum_le_sum fun j _ => Real.exp_le_exp.2 ?_
  exact mul_le_mul_of_nonpos_right hbb (sub_nonpos.2 (hk j))

theorem best_strict (r : Fin q → ℝ) {b b' : ℝ} (hbb : b < b') (k : Fin q) (hk : ∀ j, r j ≤ r k)
    (hne : ∃ j, r j ≠ r k) : boltzmann r b k < boltzmann r b' k := by
  rw [boltzmann_best, boltzmann_best]
  obtain ⟨j0, hj0⟩ := hne
  refine one_div_lt_one_div_of_lt (sum_pos (fun j _ => Real.exp_pos _) ⟨k, mem_univ k⟩) ?_
  refine sum_lt_sum (fun j _ => Real.exp_le_exp.2 ?_) ⟨j0, mem_univ _, Real.exp_lt_exp.2 ?_⟩
  · exact mul_le_mul_of_nonpos_right hbb.le (sub_nonpos.2 (hk j))
  · exact mul_lt_mul_of_neg_right hbb (sub_neg.2 (lt_of_le_of_ne (hk j0) hj0))

/-- C79: the success probability of every query grows with `beta`, strictly unless all its alternatives are
equally good. -/
theorem C79_monotone (hn : 0 < n) (hq : 0 < q) {b b' : ℝ} (hb : 0 ≤ b) (hbb : b < b') (y : Fin n → Fin q → ℝ) :
    ∃ pm pm', pMaxRows b y = .ok pm ∧ pMaxRows b' y = .ok pm' ∧
      ∀ i, pm i ≤ pm' i ∧ ((∃ j j', y i j ≠ y i j') → pm i < pm' i) := by
  refine ⟨_, _, pMaxRows_eq hn hq b y, pMaxRows_eq hn hq b' y, fun i => ?_⟩
  obtain ⟨k, hk⟩ := exists_best hq (y i)
  rw [rowMax_boltzmann (y i) hb k hk, rowMax_boltzmann (y i) (hb.trans hbb.le) k hk]
  refine ⟨best_mono _ hbb.le k hk, fun ⟨j, j', hj⟩ => best_strict _ hbb k hk ?_⟩
  by_contra h
  push Not at h
  exact hj ((h j).trans (h j').symm)

/-- C79 (inseparable): if the alternatives of every query are equally good, every `beta` gives success
probability one over the number of alternatives, so no other target can be met. -/
theorem C79_inseparable (hn : 0 < n) (hq : 0 < q) (b : ℝ) (hb : 0 ≤ b) (y : Fin n → Fin q → ℝ)
    (hy : ∀ i j j', y i j = y i j') : pMaxRows b y = .ok fun _ => 1 / (q : ℝ) := by
  rw [pMaxRows_eq hn hq]
  congr 1
  funext i
  rw [rowMax_boltzmann (y i) hb ⟨0, hq⟩ (fun j => (hy i j _).le), boltzmann_best]
  simp [hy i _ ⟨0, hq⟩]

theorem continuous_best (r : Fin q → ℝ) (k : Fin q) : Continuous fun b => boltzmann r b k := by
  simp_rw [boltzmann_best]
  refine Continuous.div continuous_const (by fun_prop) fun b => ?_
  exact (sum_pos (fun j _ => Real.exp_pos _) ⟨k, mem_univ k⟩).ne'

/-- C79 (reachable): every target between the mean success probabilities at the two ends of the search range
is met by some `beta` of the range, and by only one unless all queries are inseparable. -/
theorem C79_reachable (hn : 0 < n) (hq : 0 < q) {lo hi p : ℝ} (h0 : 0 ≤ lo) (hlh : lo ≤ hi)
    (y : Fin n → Fin q → ℝ) {pl ph : Fin n → ℝ} (hl : pMaxRows lo y = .ok pl) (hh : pMaxRows hi y = .ok ph)
    (h1 : (∑ i, pl i) / n ≤ p) (h2 : p ≤ (∑ i, ph i) / n) :
    (∃ b pm, lo ≤ b ∧ b ≤ hi ∧ pMaxRows b y = .ok pm ∧ (∑ i, pm i) / n = p) ∧
    ((∃ i j j', y i j ≠ y i j') → ∀ b b' pm pm', 0 ≤ b → 0 ≤ b' → pMaxRows b y = .ok pm → pMaxRows b' y = .ok pm' →
      (∑ i, pm i) / n = p → (∑ i, pm' i) / n = p → b = b') := by
  choose k hk using fun i => exists_best hq (y i)
  have hG : ∀ b, 0 ≤ b → ∀ pm, pMaxRows b y = .ok pm → ∑ i, pm i = ∑ i, boltzmann (y i) b (k i) := by
    intro b hb pm hpm
    rw [pMaxRows_eq hn hq] at hpm
    cases hpm
    exact sum_congr rfl fun i _ => rowMax_boltzmann (y i) hb (k i) (hk i)
  have hn' : (0 : ℝ) < n := by exact_mod_cast hn
  constructor
  · have hc : ContinuousOn (fun b => (∑ i, boltzmann (y i) b (k i)) / n) (Set.Icc lo hi) := by
      refine Continuous.continuousOn ?_
      exact (continuous_finset_sum _ fun i _ => continuous_best (y i) (k i)).div_const _
    rw [hG lo h0 pl hl] at h1
    rw [hG hi (h0.trans hlh) ph hh] at h2
    obtain ⟨b, hb, hbp⟩ := intermediate_value_Icc hlh hc ⟨h1, h2⟩
    refine ⟨b, _, hb.1, hb.2, pMaxRows_eq hn hq b y, ?_⟩
    rw [hG b (h0.trans hb.1) _ (pMaxRows_eq hn hq b y)]
    exact hbp
  · rintro ⟨i0, j, j', hj⟩ b b' pm pm' hb hb' hpm hpm' hp hp'
    have key : ∀ b b' pm pm', 0 ≤ b → b < b' → pMaxRows b y = .ok pm → pMaxRows b' y = .ok pm' →
        (∑ i, pm i) / n < (∑ i, pm' i) / n := by
      intro b b' pm pm' hb hbb hpm hpm'
      obtain ⟨a, a', ha, ha', hm⟩ := C79_monotone hn hq hb hbb y
      rw [ha] at hpm; rw [ha'] at hpm'
      cases hpm; cases hpm'
      refine div_lt_div_of_pos_right ?_ hn'
      exact sum_lt_sum (fun i _ => (hm i).1) ⟨i0, mem_univ _, (hm i0).2 ⟨j, j', hj⟩⟩
    rcases lt_trichotomy b b' with h | h | h
    · have := key b b' pm pm' hb h hpm hpm'
      rw [hp, hp'] at this
      exact absurd this (lt_irrefl _)
    · exact h
    · have := key b' b pm' pm hb' h hpm' hpm
      rw [hp, hp'] at this
      exact absurd this (lt_irrefl _)

/-- C79 (limit): as `beta` grows the success probability of a query tends to one over the number of its best
alternatives. -/
theorem C79_limit (r : Fin q → ℝ) (k : Fin q) (hk : ∀ j, r j ≤ r k) :
    Filter.Tendsto (fun b => rowMax (boltzmann r b)) Filter.atTop
      (nhds (1 / ((univ.filter fun j => r j = r k).card : ℝ))) := by
  have h1 : Filter.Tendsto (fun b => ∑ j, Real.exp (b * (r j - r k))) Filter.atTop
      (nhds (∑ j, if r j = r k then (1 : ℝ) else 0)) := by
    refine tendsto_finset_sum _ fun j _ => ?_
    split_ifs with h
    · simp [h]
    · have hneg : r j - r k < 0 := sub_neg.2 (lt_of_le_of_ne (hk j) h)
      exact Real.tendsto_exp_atBot.comp (Filter.tendsto_id.atTop_mul_const_of_neg hneg)
  have h2 : (∑ j, if r j = r k then (1 : ℝ) else 0) = ((univ.filter fun j => r j = r k).card : ℝ) := by
    simp
  rw [h2] at h1
  have hpos : (0 : ℝ) < ((univ.filter fun j => r j = r k).card : ℝ) := by
    exact_mod_cast card_pos.2 ⟨k, by simp⟩
  refine Filter.Tendsto.congr' ?_ (tendsto_const_nhds.div h1 hpos.ne')
  filter_upwards [Filter.eventually_ge_atTop 0] with b hb
  rw [rowMax_boltzmann r hb k hk, boltzmann_best]
  rfl

/-- C79 (sampled objective): for fixed draws the sampled success rate grows with `beta`, and the objective is
the squared distance of a number between 0 and 1 from the target. -/
theorem C79_sampled (hn : 0 < n) (hq : 0 < q) {b b' : ℝ} (hb : 0 ≤ b) (hbb : b ≤ b') (desired : ℝ)
    (y : Fin n → Fin q → ℝ) (pf : Fin n → ℝ) :
    ∃ s s', sampledObjective b desired y pf = .ok ((s - desired) ^ 2) ∧
      sampledObjective b' desired y pf = .ok ((s' - desired) ^ 2) ∧ 0 ≤ s ∧ s ≤ s' ∧ s' ≤ 1 := by
  have hn' : (0 : ℝ) < n := by exact_mod_cast hn
  refine ⟨((univ.filter fun i => pf i ≤ rowMax (boltzmann (y i) b)).card : ℝ) / n,
    ((univ.filter fun i => pf i ≤ rowMax (boltzmann (y i) b')).card : ℝ) / n, ?_, ?_, by positivity, ?_, ?_⟩
  · unfold sampledObjective; rw [pMaxRows_eq hn hq]; rfl
  · unfold sampledObjective; rw [pMaxRows_eq hn hq]; rfl
  · refine div_le_div_of_nonneg_right ?_ hn'.le
    exact_mod_cast card_le_card fun i hi => by
      simp only [mem_filter, mem_univ, true_and] at hi ⊢
      obtain ⟨k, hk⟩ := exists_best hq (y i)
      rw [rowMax_boltzmann (y i) hb k hk] at hi
      rw [rowMax_boltzmann (y i) (hb.trans hbb) k hk]
      exact hi.trans (best_mono _ hbb k hk)
  · rw [div_le_one hn']
    have := card_filter_le (univ : Finset (Fin n)) fun i => pf i ≤ rowMax (boltzmann (y i) b')
    simp only [card_univ, Fintype.card_fin] at this
    exact_mod_cast this

theorem klTerm_nonneg {p d : ℝ} (hp0 : 0 < p) (hp1 : p < 1) (hd0 : 0 < d) (hd1 : d < 1) :
    0 ≤ klTerm p d ∧ (klTerm p d = 0 ↔ p = d) := by
  have key : ∀ x z : ℝ, 0 < x → 0 < z → x - z ≤ x * Real.log (x / z) ∧
      (x ≠ z → x - z < x * Real.log (x / z)) := by
    intro x z hx hz
    have h1 : Real.log (x / z) = -Real.log (z / x) := by
      rw [← Real.log_inv, inv_div]
    have h2 : x * (z / x - 1) = z - x := by field_simp
    rw [h1]
    constructor
    · have := Real.log_le_sub_one_of_pos (div_pos hz hx)
      have := mul_le_mul_of_nonneg_left this hx.le
      linarith
    · intro hne
      have := Real.log_lt_sub_one_of_pos (div_pos hz hx) (by
        rw [Ne, div_eq_one_iff_eq hx.ne']
        exact fun h => hne h.symm)
      have := mul_lt_mul_of_pos_left this hx
      linarith
  have k1 := key p d hp0 hd0
  have k2 := key (1 - p) (1 - d) (by linarith) (by linarith)
  unfold klTerm
  refine ⟨by linarith [k1.1, k2.1], fun h => ?_, ?_⟩
  · by_contra hne
    have := k1.2 hne
    linarith [k2.1]
  · rintro rfl
    rw [div_self hp0.ne', div_self (by linarith : (1 - p) ≠ 0)]
    simp

theorem klClip_bounds (p : ℝ) : 0.000001 ≤ klClip p ∧ klClip p ≤ 0.999999 := by
  unfold klClip
  dsimp only
  split_ifs <;> constructor <;> norm_num at * <;> linarith

/-- C79 (KL objective): it is never negative, and 0 exactly if the (clipped) success probability of every
query is the target. Targets outside (0,1) give `nan`. -/
theorem C79_kl (hn : 0 < n) (hq : 0 < q) (b : ℝ) (hb : 0 ≤ b) (desired : ℝ) (y : Fin n → Fin q → ℝ) :
    (0 < desired → desired < 1 → ∃ v pm, pMaxRows b y = .ok pm ∧ klObjective b desired y = .ok (some v) ∧ 0 ≤ v ∧
      (v = 0 ↔ ∀ i, max 0.000001 (min 0.999999 (pm i)) = desired)) ∧
    (desired ≤ 0 ∨ 1 ≤ desired → klObjective b desired y = .ok none) := by
  have hn' : (0 : ℝ) < n := by exact_mod_cast hn
  have hclip : ∀ p : ℝ, klClip p = max 0.000001 (min 0.999999 p) := by
    intro p
    unfold klClip
    dsimp only
    rcases lt_or_ge 0.999999 p with h | h
    · rw [if_pos h, min_eq_left h.le, if_neg (by norm_num), max_eq_right (by norm_num)]
    · rw [if_neg (not_lt.2 h), min_eq_right h]
      rcases lt_or_ge p 0.000001 with h' | h'
      · rw [if_pos h', max_eq_left h'.le]
      · rw [if_neg (not_lt.2 h'), max_eq_right h']
  constructor
  · intro h0 h1
    have hterm : ∀ p, 0 ≤ klTerm (klClip p) desired + klTerm desired (klClip p) ∧
        (klTerm (klClip p) desired + klTerm desired (klClip p) = 0 ↔ klClip p = desired) := by
      intro p
      obtain ⟨hc0, hc1⟩ := klClip_bounds p
      have k1 := klTerm_nonneg (p := klClip p) (d := desired) (by linarith) (by linarith) h0 h1
      have k2 := klTerm_nonneg (p := desired) (d := klClip p) h0 h1 (by linarith) (by linarith)
      refine ⟨by linarith [k1.1, k2.1], fun h => k1.2.1 (by linarith [k1.1, k2.1]), fun h => ?_⟩
      rw [k1.2.2 h, k2.2.2 h.symm, add_zero]
    refine ⟨(∑ i, (klTerm (klClip (rowMax (boltzmann (y i) b))) desired +
        klTerm desired (klClip (rowMax (boltzmann (y i) b))))) / n, _, pMaxRows_eq hn hq b y, ?_, ?_, ?_⟩
    · unfold klObjective
      rw [pMaxRows_eq hn hq]
      simp only [Except.map, if_pos (And.intro h0 h1)]
    · exact div_nonneg (sum_nonneg fun i _ => (hterm _).1) hn'.le
    · rw [div_eq_zero_iff, or_iff_left hn'.ne', sum_eq_zero_iff_of_nonneg fun i _ => (hterm _).1]
      refine forall_congr' fun i => ?_
      rw [← hclip]
      exact ⟨fun h => (hterm _).2.1 (h (mem_univ i)), fun h _ => (hterm _).2.2 h⟩
  · intro h
    unfold klObjective
    rw [pMaxRows_eq hn hq]
    simp only [Except.map]
    rw [if_neg (by rintro ⟨h0, h1⟩; rcases h with h | h <;> linarith)]

theorem mapM_ofOk {α β : Type*} (l : List α) (f : α → Except PyErr β) (g : α → β) (h : ∀ a, f a = .ok (g a)) :
    l.mapM f = .ok (l.map g) := by
  induction l with
  | nil => rfl
  | cons a l ih => rw [List.mapM_cons, h, ih]; rfl

/-- C79 (rating objective): it is the squared distance from the target of the proportion of queries in which the
noise leaves the (first) best alternative in place. -/
theorem C79_rate (hn : 0 < n) (hq : 0 < q) (sigma : ℝ) (hs : 0 ≤ sigma) (desired : ℝ) (y z : Fin n → Fin q → ℝ) :
    ∃ A : Finset (Fin n), rateSampledObjective sigma desired y z = .ok (some (((A.card : ℝ) / n - desired) ^ 2)) ∧
      ∀ i, i ∈ A ↔ ∃ k : Fin q, (∀ j, y i j ≤ y i k) ∧ (∀ j < k, y i j < y i k) ∧
        (∀ j, y i j + sigma * z i j ≤ y i k + sigma * z i k) ∧
        (∀ j < k, y i j + sigma * z i j < y i k + sigma * z i k) := by
  have hok : ∀ f : Fin q → ℝ, ∃ k : Fin q, npArgmax (List.ofFn f) = .ok k.1 ∧
      (∀ j, f j ≤ f k) ∧ ∀ j < k, f j < f k := by
    intro f
    obtain ⟨b, hb⟩ := npArgmax_isOk (l := List.ofFn f) (by
      intro h
      have := congrArg List.length h
      simp at this
      omega)
    obtain ⟨m, h1, h2, h3⟩ := npArgmax_spec hb
    obtain ⟨hlt, hm⟩ := List.getElem?_eq_some_iff.1 h1
    have hlt' : b < q := by simpa using hlt
    rw [List.getElem_ofFn] at hm
    subst hm
    refine ⟨⟨b, hlt'⟩, hb, fun j => h2 _ (by simp), fun j hj => h3 j.1 _ hj ?_⟩
    simp
  have huniq : ∀ (f : Fin q → ℝ) (k k' : Fin q), (∀ j, f j ≤ f k) → (∀ j < k, f j < f k) →
      (∀ j, f j ≤ f k') → (∀ j < k', f j < f k') → k = k' := by
    intro f k k' h1 h2 h3 h4
    rcases lt_trichotomy k k' with h | h | h
    · exact absurd (h4 k h) (not_lt.2 (h1 k'))
    · exact h
    · exact absurd (h2 k' h) (not_lt.2 (h3 k))
  choose R hR hR1 hR2 using fun i => hok fun j => y i j + sigma * z i j
  choose S hS hS1 hS2 using fun i => hok (y i)
  refine ⟨univ.filter fun i => R i = S i, ?_, fun i => ?_⟩
  · unfold rateSampledObjective
    rw [if_neg (by rintro (h | h) <;> [linarith; omega]),
      mapM_ofOk _ _ (fun i => (R i).1) hR, mapM_ofOk _ _ (fun i => (S i).1) hS]
    simp only [Bind.bind, Except.bind, if_neg hn.ne']
    have hlen : ((((List.finRange n).map fun i => (R i).1).zip ((List.finRange n).map fun i => (S i).1)).filter
        fun q => q.1 = q.2).length = (univ.filter fun i => R i = S i).card := by
      rw [List.zip_map', List.filter_map, List.length_map]
      have hf : (List.finRange n).filter ((fun q : Nat × Nat => decide (q.1 = q.2)) ∘ fun i => ((R i).1, (S i).1)) =
          (List.finRange n).filter fun i => decide (R i = S i) :=
        List.filter_congr fun i _ => by simp [Fin.ext_iff]
      rw [hf]
      rfl
    rw [hlen]
    rfl
  · simp only [mem_filter, mem_univ, true_and]
    constructor
    · intro h
      refine ⟨S i, hS1 i, hS2 i, ?_, ?_⟩
      · rw [← h]; exact hR1 i
      · rw [← h]; exact hR2 i
    · rintro ⟨k, k1, k2, k3, k4⟩
      rw [huniq _ _ k (hS1 i) (hS2 i) k1 k2]
      exact huniq (fun j => y i j + sigma * z i j) _ k (hR1 i) (hR2 i) k3 k4

/-- C79 (rating objective, little noise): if in every query the best alternative leads by more than the noise can
overturn, all queries count as correct. -/
theorem C79_rate_little_noise (hn : 0 < n) (hq : 0 < q) (sigma : ℝ) (hs : 0 ≤ sigma) (desired c : ℝ)
    (y z : Fin n → Fin q → ℝ) (hz : ∀ i j, |z i j| ≤ c)
    (hy : ∀ i, ∃ k, ∀ j, j ≠ k → y i j + 2 * sigma * c < y i k) :
    rateSampledObjective sigma desired y z = .ok (some ((1 - desired) ^ 2)) := by
  obtain ⟨A, hA, hAi⟩ := C79_rate hn hq sigma hs desired y z
  have : A = univ := by
    refine eq_univ_iff_forall.2 fun i => (hAi i).2 ?_
    obtain ⟨k, hk⟩ := hy i
    have hc : 0 ≤ c := (abs_nonneg _).trans (hz i k)
    have h1 : ∀ j, j ≠ k → y i j < y i k := fun j hj => by
      have := hk j hj
      have : 0 ≤ 2 * sigma * c := by positivity
      linarith
    have h2 : ∀ j, j ≠ k → y i j + sigma * z i j < y i k + sigma * z i k := fun j hj => by
      have h3 := hk j hj
      have h4 := mul_le_mul_of_nonneg_left (abs_le.1 (hz i j)).2 hs
      have h5 := mul_le_mul_of_nonneg_left (abs_le.1 (hz i k)).1 hs
      linarith
    refine ⟨k, fun j => ?_, fun j hj => h1 j hj.ne, fun j => ?_, fun j hj => h2 j hj.ne⟩
    · rcases eq_or_ne j k with rfl | h
      · exact le_rfl
      · exact (h1 j h).le
    · rcases eq_or_ne j k with rfl | h
      · exact le_rfl
      · exact (h2 j h).le
  rw [hA, this, card_univ, Fintype.card_fin, div_self (by exact_mod_cast hn.ne')]

/-- C79, error branches of the rating objective. -/
theorem C79_rate_errors (sigma desired : ℝ) (y z : Fin n → Fin q → ℝ) (y' z' : Fin n → Fin 0 → ℝ)
    (y0 z0 : Fin 0 → Fin q → ℝ) :
    (sigma < 0 → rateSampledObjective sigma desired y z = .error .valueError) ∧
    rateSampledObjective sigma desired y' z' = .error .valueError ∧
    (0 ≤ sigma → 0 < q → rateSampledObjective sigma desired y0 z0 = .ok none) := by
  refine ⟨fun h => ?_, ?_, fun h h' => ?_⟩
  · unfold rateSampledObjective; rw [if_pos (.inl h)]
  · unfold rateSampledObjective; rw [if_pos (.inr rfl)]
  · unfold rateSampledObjective; rw [if_neg (by rintro (h | h) <;> [linarith; omega])]; rfl

/-- Two queries of two alternatives: every target between the success probabilities at 0 and at 1 is reachable. -/
example : ∃ pl ph : Fin 2 → ℝ, pMaxRows 0 (![![0, 1], ![2, 1]] : Fin 2 → Fin 2 → ℝ) = .ok pl ∧
    pMaxRows 1 (![![0, 1], ![2, 1]] : Fin 2 → Fin 2 → ℝ) = .ok ph ∧
    (∑ i, pl i) / (2 : ℕ) < (∑ i, ph i) / (2 : ℕ) := by
  obtain ⟨pm, pm', h1, h2, h3⟩ := C79_monotone (n := 2) (q := 2) (by norm_num) (by norm_num) le_rfl
    (zero_lt_one (α := ℝ)) (![![0, 1], ![2, 1]] : Fin 2 → Fin 2 → ℝ)
  refine ⟨pm, pm', h1, h2, ?_⟩
  have a := (h3 0).2 ⟨0, 1, by simp⟩
  have b := (h3 1).2 ⟨0, 1, by simp⟩
  rw [Fin.sum_univ_two, Fin.sum_univ_two]
  push_cast
  linarith

/-- A query with a clear winner and bounded noise. -/
example : rateSampledObjective (n := 1) (q := 2) 0.1 0.9 ![![0, 1]] ![![2, -2]] = .ok (some ((1 - 0.9) ^ 2)) :=
  C79_rate_little_noise (by norm_num) (by norm_num) 0.1 (by norm_num) 0.9 2 _ _
    (fun i j => by fin_cases i; fin_cases j <;> simp)
    (fun i => ⟨1, fun j hj => by fin_cases i; fin_cases j <;> [norm_num; simp at hj]⟩)

section Expectation

open MeasureTheory ProbabilityTheory

/-- C79 (expected objective): for independent uniform draws the expected value of the sampled objective is the
squared distance of the mean success probability from the target plus the sampling variance. -/
theorem C79_expected (hn : 0 < n) (hq : 0 < q) (b : ℝ) (hb : 0 ≤ b) (desired : ℝ) (y : Fin n → Fin q → ℝ)
    {Ω : Type*} [MeasurableSpace Ω] (μ : Measure Ω) [IsProbabilityMeasure μ] (U : Fin n → Ω → ℝ)
    (hm : ∀ i, Measurable (U i)) (hind : iIndepFun U μ)
    (hU : ∀ i t, 0 ≤ t → t ≤ 1 → μ.real {ω | U i ω ≤ t} = t) :
    ∃ (F : Ω → ℝ) (pm : Fin n → ℝ), pMaxRows b y = .ok pm ∧ (∀ ω, sampledObjective b desired y (fun i => U i ω) = .ok (F ω)) ∧
      ∫ ω, F ω ∂μ = ((∑ i, pm i) / n - desired) ^ 2 + (∑ i, pm i * (1 - pm i)) / n ^ 2 := by
  have hn' : (n : ℝ) ≠ 0 := by exact_mod_cast hn.ne'
  obtain ⟨pm, hpm, hpb⟩ := C79_pmax hn hq b hb y
  have hq' : (0 : ℝ) < q := by exact_mod_cast hq
  have hp0 : ∀ i, 0 ≤ pm i := fun i => le_trans (by positivity) (hpb i).1
  let X : Fin n → Ω → ℝ := fun i ω => if U i ω ≤ pm i then 1 else 0
  have hXm : ∀ i, Measurable (X i) := fun i =>
    Measurable.ite (measurableSet_le (hm i) measurable_const) measurable_const measurable_const
  have hXL : ∀ i, MemLp (X i) 2 μ := fun i => by
    refine MemLp.of_bound (hXm i).aestronglyMeasurable 1 (Filter.Eventually.of_forall fun ω => ?_)
    simp only [X]
    split_ifs <;> simp
  have hXE : ∀ i, ∫ ω, X i ω ∂μ = pm i := by
    intro i
    have : X i = Set.indicator {ω | U i ω ≤ pm i} 1 := by
      funext ω
      simp [X, Set.indicator_apply]
    rw [this, integral_indicator_one (measurableSet_le (hm i) measurable_const)]
    exact hU i _ (hp0 i) (hpb i).2.1
  have hXsq : ∀ i, X i ^ 2 = X i := by
    intro i
    funext ω
    simp only [X, Pi.pow_apply]
    split_ifs <;> simp
  have hXV : ∀ i, variance (X i) μ = pm i * (1 - pm i) := by
    intro i
    rw [variance_eq_sub (hXL i), hXsq, hXE]
    ring
  have hXind : iIndepFun X μ := by
    have := hind.comp (fun i (u : ℝ) => if u ≤ pm i then (1 : ℝ) else 0) (fun i =>
      Measurable.ite measurableSet_Iic measurable_const measurable_const)
    exact this
  have hV : variance (∑ i, X i) μ = ∑ i, pm i * (1 - pm i) := by
    rw [IndepFun.variance_sum (fun i _ => hXL i) (fun i _ j _ hij => hXind.indepFun hij)]
    exact sum_congr rfl fun i _ => hXV i
  have hSL : MemLp (∑ i, X i) 2 μ := memLp_finsetSum' _ fun i _ => hXL i
  have hSE : ∫ ω, (∑ i, X i) ω ∂μ = ∑ i, pm i := by
    simp only [Finset.sum_apply]
    rw [integral_finset_sum _ fun i _ => (hXL i).integrable one_le_two]
    exact sum_congr rfl fun i _ => hXE i
  have hS2 : ∫ ω, ((∑ i, X i) ω) ^ 2 ∂μ = (∑ i, pm i * (1 - pm i)) + (∑ i, pm i) ^ 2 := by
    have := variance_eq_sub hSL
    rw [hV, hSE] at this
    have h2 : ∫ ω, ((∑ i, X i) ^ 2) ω ∂μ = ∫ ω, ((∑ i, X i) ω) ^ 2 ∂μ := rfl
    rw [h2] at this
    linarith
  refine ⟨fun ω => ((∑ i, X i) ω / n - desired) ^ 2, pm, hpm, fun ω => ?_, ?_⟩
  · unfold sampledObjective
    rw [hpm]
    simp only [Except.map]
    congr 4
    rw [Finset.sum_apply]
    simp [X]
  · have hexp : ∀ ω, ((∑ i, X i) ω / n - desired) ^ 2 =
        ((∑ i, X i) ω) ^ 2 * (1 / (n : ℝ) ^ 2) + ((∑ i, X i) ω * (-(2 * desired / n)) + desired ^ 2) := by
      intro ω
      field_simp
      ring
    simp_rw [hexp]
    have i1 : Integrable (fun ω => ((∑ i, X i) ω) ^ 2 * (1 / (n : ℝ) ^ 2)) μ := (hSL.integrable_sq).mul_const _
    have i2 : Integrable (fun ω => (∑ i, X i) ω * (-(2 * desired / n))) μ :=
      (hSL.integrable one_le_two).mul_const _
    have i3 : Integrable (fun ω => (∑ i, X i) ω * (-(2 * desired / n)) + desired ^ 2) μ :=
      i2.add (integrable_const _)
    rw [integral_add i1 i3, integral_add i2 (integrable_const _),
      integral_mul_const, integral_mul_const, hS2, hSE]
    simp only [integral_const, probReal_univ, one_smul]
    field_simp
    ring

/-- Independent uniform draws exist. -/
example : ∃ (U : Fin 2 → (Fin 2 → unitInterval) → ℝ), (∀ i, Measurable (U i)) ∧
    iIndepFun U (Measure.pi fun _ => (volume : Measure unitInterval)) ∧
    ∀ i t, 0 ≤ t → t ≤ 1 →
      (Measure.pi fun _ => (volume : Measure unitInterval)).real {ω | U i ω ≤ t} = t := by
  refine ⟨fun i ω => (ω i : ℝ), fun i => ?_, ?_, fun i t h0 h1 => ?_⟩
  · exact measurable_subtype_coe.comp (measurable_pi_apply i)
  · exact iIndepFun_pi (X := fun _ (u : unitInterval) => (u : ℝ)) fun i => measurable_subtype_coe.aemeasurable
  · have : {ω : Fin 2 → unitInterval | (ω i : ℝ) ≤ t} = Function.eval i ⁻¹' Set.Iic ⟨t, h0, h1⟩ := rfl
    rw [this, Measure.real, (measurePreserving_eval _ i).measure_preimage measurableSet_Iic.nullMeasurableSet]
    simp [h0]

end Expectation

end Lop.Props
