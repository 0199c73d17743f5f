import Verif.Props.GPActive
import Mathlib.MeasureTheory.Order.Lattice

/-! # Lemmas about the expected regret of `UCBLearner` -/

namespace Lop

open Spec MeasureTheory ProbabilityTheory Matrix

variable {d n : Nat} {Ω : Type*} [mΩ : MeasurableSpace Ω] {μ : Measure Ω} [IsProbabilityMeasure μ]

/-- By how much a Gaussian variable exceeds `alpha` standard deviations, on average. -/
theorem excess_le {R : Ω → ℝ} {v : ℝ} (hv : 0 ≤ v) (hR : μ.map R = gaussianReal 0 v.toNNReal) {alpha : ℝ} (hal : 0 < alpha) :
    Integrable (fun ω => max (R ω - alpha * Real.sqrt v) 0) μ ∧
      ∫ ω, max (R ω - alpha * Real.sqrt v) 0 ∂μ ≤ Real.sqrt v * (Real.exp (-(alpha ^ 2 / 2) - 1) / alpha) := by
  have hRm : AEMeasurable R μ := aemeasurable_of_map_neZero (by rw [hR]; infer_instance)
  have hRG : HasGaussianLaw R μ := ⟨by rw [hR]; infer_instance⟩
  have hRi : Integrable R μ := hRG.memLp_two.integrable (by norm_num)
  have hint : Integrable (fun ω => max (R ω - alpha * Real.sqrt v) 0) μ := (hRi.sub (integrable_const _)).sup (integrable_const 0)
  refine ⟨hint, ?_⟩
  rcases hv.eq_or_lt with h0 | hpos
  · have hz : ∀ᵐ ω ∂μ, R ω = 0 := by
      have h1 : ∀ᵐ x ∂(μ.map R), x = 0 := by
        rw [hR, ← h0]
        simp
      exact ae_of_ae_map hRm h1
    have : ∫ ω, max (R ω - alpha * Real.sqrt v) 0 ∂μ = 0 := by
      rw [integral_eq_zero_of_ae]
      filter_upwards [hz] with ω hω
      simp [hω, ← h0]
    rw [this]
    positivity
  · set σ := Real.sqrt v with hσ
    have hσp : 0 < σ := Real.sqrt_pos.2 hpos
    have hexp : Integrable (fun ω => Real.exp (alpha / σ * R ω)) μ := by
      have h := mgf_gaussianReal hR (alpha / σ)
      rw [← mgf_pos_iff, h]
      exact Real.exp_pos _
    have hpt : ∀ ω, max (R ω - alpha * σ) 0 ≤ σ / alpha * Real.exp (-alpha ^ 2 - 1) * Real.exp (alpha / σ * R ω) := by
      intro ω
      rw [mul_assoc, ← Real.exp_add]
      have e : -alpha ^ 2 - 1 + alpha / σ * R ω = alpha * (R ω - alpha * σ) / σ - 1 := by
        field_simp
        ring
      rw [e]
      refine max_le ?_ (by positivity)
      have h1 := Real.add_one_le_exp (alpha * (R ω - alpha * σ) / σ - 1)
      have h2 : R ω - alpha * σ = σ / alpha * (alpha * (R ω - alpha * σ) / σ) := by
        field_simp
      calc R ω - alpha * σ = σ / alpha * (alpha * (R ω - alpha * σ) / σ) := h2
        _ ≤ _ := mul_le_mul_of_nonneg_left (by linarith) (by positivity)
    have hmono := integral_mono hint (hexp.const_mul (σ / alpha * Real.exp (-alpha ^ 2 - 1))) hpt
    refine hmono.trans (le_of_eq ?_)
    rw [integral_const_mul]
    have hm : ∫ ω, Real.exp (alpha / σ * R ω) ∂μ = Real.exp (alpha ^ 2 / 2) := by
      have h := mgf_gaussianReal hR (alpha / σ)
      rw [mgf] at h
      rw [h]
      congr 1
      rw [Real.coe_toNNReal _ hv, zero_mul, zero_add, div_pow, ← Real.sq_sqrt hv, ← hσ]
      field_simp
    rw [hm, mul_assoc, ← Real.exp_add]
    have : -alpha ^ 2 - 1 + alpha ^ 2 / 2 = -(alpha ^ 2 / 2) - 1 := by ring
    rw [this]
    ring

omit [IsProbabilityMeasure μ] in
/-- A function known piece by piece. -/
theorem parts_integral {ι : Type*} [Fintype ι] {E : ι → Set Ω} (hE : ∀ p, MeasurableSet (E p)) (hd : Pairwise fun p q => Disjoint (E p) (E q))
    (hc : ∀ ω, ∃ p, ω ∈ E p) {h : Ω → ℝ} {H : ι → Ω → ℝ} (hh : ∀ p, ∀ ω ∈ E p, h ω = H p ω) (hH : ∀ p, Integrable (H p) μ) :
    Integrable h μ ∧ ∫ ω, h ω ∂μ = ∑ p, ∫ ω, (E p).indicator (H p) ω ∂μ := by
  have e : h = fun ω => ∑ p, (E p).indicator (H p) ω := by
    funext ω
    obtain ⟨p, hp⟩ := hc ω
    rw [Finset.sum_eq_single p, Set.indicator_of_mem hp, hh p ω hp]
    · intro q _ hq
      exact Set.indicator_of_notMem (fun hm => Set.disjoint_left.1 (hd hq) hm hp) _
    · intro h; exact absurd (Finset.mem_univ p) h
  have hi : ∀ p, Integrable ((E p).indicator (H p)) μ := fun p => (hH p).indicator (hE p)
  constructor
  · rw [e]
    exact integrable_finsetSum _ fun p _ => hi p
  · rw [e, integral_finsetSum _ fun p _ => hi p]

/-- An event which is independent of a variable. -/
theorem indep_indicator {β : Type*} [MeasurableSpace β] {R : Ω → ℝ} {Y : Ω → β} (h : IndepFun R Y μ) (hR : AEMeasurable R μ) (hY : Measurable Y)
    {Q : Set β} (hQ : MeasurableSet Q) {φ : ℝ → ℝ} (hφ : Measurable φ) :
    ∫ ω, (Y ⁻¹' Q).indicator (fun ω => φ (R ω)) ω ∂μ = μ.real (Y ⁻¹' Q) * ∫ ω, φ (R ω) ∂μ := by
  have hi : Measurable (Q.indicator (fun _ => (1 : ℝ))) := measurable_const.indicator hQ
  have h1 := h.symm.comp hi hφ
  have h2 := h1.integral_mul_eq_mul_integral (hi.comp hY).aestronglyMeasurable (hφ.comp_aemeasurable hR).aestronglyMeasurable
  have e1 : (Y ⁻¹' Q).indicator (fun ω => φ (R ω)) = (Q.indicator (fun _ => (1 : ℝ)) ∘ Y) * (φ ∘ R) := by
    funext ω
    by_cases hω : Y ω ∈ Q
    · rw [Set.indicator_of_mem (show ω ∈ Y ⁻¹' Q from hω)]
      simp [hω]
    · rw [Set.indicator_of_notMem (show ω ∉ Y ⁻¹' Q from hω)]
      simp [hω]
  have e2 : ∫ ω, (Q.indicator (fun _ => (1 : ℝ)) ∘ Y) ω ∂μ = μ.real (Y ⁻¹' Q) := by
    have : (Q.indicator (fun _ => (1 : ℝ)) ∘ Y) = (Y ⁻¹' Q).indicator 1 := by
      funext ω
      by_cases hω : Y ω ∈ Q <;> simp [hω]
    rw [this, integral_indicator_one (hY hQ)]
  rw [e1, h2, e2]
  rfl

/-- The mean predicted for one point. -/
noncomputable def atMean (cov : CovFn d) (st : GPState d) (x : Pt d) : ℝ :=
  match gpRegress cov (fun _ => 0) st (fun _ : Fin 1 => x) with
  | .ok p => p.mu 0
  | .error _ => 0

/-- The variance predicted for one point. -/
noncomputable def atVar (cov : CovFn d) (st : GPState d) (x : Pt d) : ℝ :=
  match gpRegress cov (fun _ => 0) st (fun _ : Fin 1 => x) with
  | .ok p => p.sigma 0
  | .error _ => 0

theorem visits_succ (z : Nat → Pt d) (s v : Nat → ℝ) (t : Nat) (x : Pt d) [Decidable (z t = x)] :
    visits (dataOf (fun _ => 0) z s v (t + 1)) x = visits (dataOf (fun _ => 0) z s v t) x + if z t = x then 1 else 0 := by
  classical
  rw [dataOf_succ]
  unfold visits
  rw [gpAdd_getD, List.filter_append, List.length_append]
  congr 1
  by_cases h : z t = x <;> simp [h]

/-- Predictions point by point. -/
theorem point_prediction {k : KExpr ℝ (Pt d)} (hok : AllLeaves (LeafOK (d = 1)) k) (hq : AllLeaves NoNoise k) (z : Nat → Pt d)
    {s : ℝ} (hs : 0 < s) (T : Nat) :
    (∀ {n : Nat} (X : Fin n → Pt d), 0 < n → ∀ v, ∃ p, gpRegress (kcov k) (fun _ => 0) (dataOf (fun _ => 0) z (fun _ => s) v T) X = .ok p ∧
      ∀ i, p.mu i = atMean (kcov k) (dataOf (fun _ => 0) z (fun _ => s) v T) (X i) ∧
        p.sigma i = atVar (kcov k) (dataOf (fun _ => 0) z (fun _ => s) v T) (X i)) ∧
    (∀ x, Measurable fun v => atMean (kcov k) (dataOf (fun _ => 0) z (fun _ => s) v T) x) ∧
    (∀ v w x, atVar (kcov k) (dataOf (fun _ => 0) z (fun _ => s) v T) x = atVar (kcov k) (dataOf (fun _ => 0) z (fun _ => s) w T) x) ∧
    ∀ v x b, (∀ c : Matrix (Fin 1) (Fin 1) ℝ, k.cov (fun _ : Fin 1 => x) (fun _ : Fin 1 => x) = .ok c → c 0 0 ≤ b) →
      0 ≤ atVar (kcov k) (dataOf (fun _ => 0) z (fun _ => s) v T) x ∧ atVar (kcov k) (dataOf (fun _ => 0) z (fun _ => s) v T) x ≤ b ∧
      atVar (kcov k) (dataOf (fun _ => 0) z (fun _ => s) v T) x ≤ (b + s) / (visits (dataOf (fun _ => 0) z (fun _ => s) v T) x + 1) := by
  obtain ⟨g, hg, -, hpos, -⟩ := kernel_fn k hok hq
  have hdp := fun {n : Nat} (X : Fin n → Pt d) (hn : 0 < n) => data_prediction k hok hq (fun _ => 0) z (s := fun _ => s) (fun _ => hs) T X hn
  have hone : ∀ v x p, gpRegress (kcov k) (fun _ => 0) (dataOf (fun _ => 0) z (fun _ => s) v T) (fun _ : Fin 1 => x) = .ok p →
      atMean (kcov k) (dataOf (fun _ => 0) z (fun _ => s) v T) x = p.mu 0 ∧ atVar (kcov k) (dataOf (fun _ => 0) z (fun _ => s) v T) x = p.sigma 0 := by
    intro v x p h
    simp only [atMean, atVar, h, and_self]
  have ha : ∀ x, 0 ≤ g x x := fun x => by
    have := hpos x (t := 0) (fun j => j.elim0) (fun j => j.elim0)
    simpa [dotProduct] using this
  refine ⟨fun {n} X hn v => ?_, fun x => ?_, fun v w x => ?_, fun v x b hb => ?_⟩
  · obtain ⟨pred, hp, -, -⟩ := hdp X hn
    refine ⟨pred v, hp v, fun i => ?_⟩
    obtain ⟨pred1, hp1, -, -⟩ := hdp (fun _ : Fin 1 => X i) one_pos
    rw [(hone v (X i) _ (hp1 v)).1, (hone v (X i) _ (hp1 v)).2]
    rcases Nat.eq_zero_or_pos T with h0 | hT
    · subst h0
      obtain ⟨c, hc⟩ := cov_returns k X X hn
      obtain ⟨c1, hc1⟩ := cov_returns k (fun _ : Fin 1 => X i) (fun _ : Fin 1 => X i) one_pos
      have h1 := hp v
      have h2 := hp1 v
      simp only [dataOf, List.range_zero, List.foldl_nil, gpRegress, kcov, hc, hc1, Except.ok.injEq] at h1 h2
      rw [← h1, ← h2]
      simp only [true_and]
      rw [hg _ _ c hc, hg _ _ c1 hc1]
    · have hst : dataOf (fun _ => 0) z (fun _ => s) v T = some ((List.range T).map fun t => (z t, v t - 0, s)) := by
        unfold dataOf
        rw [gpAdd_fold _ _ hT]
        simp [gpAdd]
      have h1 := hp v
      have h2 := hp1 v
      rw [hst] at h1 h2
      have l1 := gp_linear (y := fun t => v t - 0) (s := fun _ => s) hg h1 rfl
      have l2 := gp_linear (y := fun t => v t - 0) (s := fun _ => s) hg h2 rfl
      have hs' : ∀ r ∈ (List.range T).map fun t => (z t, v t - 0, s), 0 ≤ r.2.2 := by
        intro r hr
        obtain ⟨t, -, rfl⟩ := List.mem_map.1 hr
        exact hs.le
      obtain ⟨_, -, -, -, a1⟩ := Props.C43_posterior k hok (quiet_of_noNoise k hq) (fun _ => 0) _ hs' X hn h1
      obtain ⟨_, -, -, -, a2⟩ := Props.C43_posterior k hok (quiet_of_noNoise k hq) (fun _ => 0) _ hs' (fun _ : Fin 1 => X i) one_pos h2
      rw [l1.2.1 i, l2.2.1 0, (a1 i).1, (a2 0).1, l1.2.2, l2.2.2]
      exact ⟨rfl, rfl⟩
  · obtain ⟨pred, hp, hm, -⟩ := hdp (fun _ : Fin 1 => x) one_pos
    simp only [fun v => (hone v x _ (hp v)).1]
    exact hm 0
  · obtain ⟨pred, hp, -, hσ⟩ := hdp (fun _ : Fin 1 => x) one_pos
    rw [(hone v x _ (hp v)).2, (hone w x _ (hp w)).2]
    exact hσ v w 0
  · obtain ⟨pred, hp, -, -⟩ := hdp (fun _ : Fin 1 => x) one_pos
    rw [(hone v x _ (hp v)).2]
    obtain ⟨c, hc⟩ := cov_returns k (fun _ : Fin 1 => x) (fun _ : Fin 1 => x) one_pos
    have hcb := hb c hc
    rcases Nat.eq_zero_or_pos T with h0 | hT
    · subst h0
      have h1 := hp v
      simp only [dataOf, List.range_zero, List.foldl_nil, gpRegress, kcov, hc, Except.ok.injEq] at h1
      rw [← h1]
      have hc0 : 0 ≤ c 0 0 := by rw [hg _ _ c hc]; exact ha x
      simp only [max_eq_right hc0, dataOf, List.range_zero, List.foldl_nil, visits, Option.getD_none, List.filter_nil, List.length_nil, Nat.cast_zero,
        zero_add, div_one]
      exact ⟨hc0, hcb, by linarith⟩
    · have hst : dataOf (fun _ => 0) z (fun _ => s) v T = some ((List.range T).map fun t => (z t, v t - 0, s)) := by
        unfold dataOf
        rw [gpAdd_fold _ _ hT]
        simp [gpAdd]
      have h1 := hp v
      rw [hst] at h1 ⊢
      have hs' : ∀ r ∈ (List.range T).map fun t => (z t, v t - 0, s), r.2.2 = s := by
        intro r hr
        obtain ⟨t, -, rfl⟩ := List.mem_map.1 hr
        rfl
      obtain ⟨prior, hpr, -, -, a1⟩ := Props.C43_posterior k hok (quiet_of_noNoise k hq) (fun _ => 0) _ (fun r hr => by rw [hs' r hr]; exact hs.le)
        (fun _ : Fin 1 => x) one_pos h1
      exact ⟨(a1 0).2.1, (a1 0).2.2.trans (hb prior hpr), var_le_visits (f := fun _ => 0) hok hq hs hs' h1 0 hb⟩

/-- The widths of the confidence bands at the measured points add up to little. -/
theorem width_sum {z : Nat → Pt d} {S : Finset (Pt d)} (hz : ∀ t, z t ∈ S) {s : ℝ} {w : Nat → ℝ} {b : ℝ} (hb : 0 ≤ b) {u : Nat → ℝ} (hu0 : ∀ t, 0 ≤ u t)
    (hu : ∀ t, u t ≤ b / (visits (dataOf (fun _ => 0) z (fun _ => s) w t) (z t) + 1)) (T : Nat) :
    ∑ t ∈ Finset.range T, Real.sqrt (u t) ≤ Real.sqrt (T * (S.card * (b * (1 + Real.log T)))) := by
  classical
  set c : Nat → Pt d → Nat := fun t x => visits (dataOf (fun _ => 0) z (fun _ => s) w t) x with hc
  have hstep : ∀ t x, c (t + 1) x = c t x + if z t = x then 1 else 0 := fun t x => visits_succ z _ w t x
  have hsum : ∀ t, ∑ j ∈ Finset.range t, u j ≤ b * ∑ x ∈ S, (harmonic (c t x) : ℝ) := by
    intro t
    induction t with
    | zero => simp [hc, visits, dataOf]
    | succ t ih =>
      rw [Finset.sum_range_succ]
      have hone : ∑ x ∈ S, (harmonic (c (t + 1) x) : ℝ) = ∑ x ∈ S, (harmonic (c t x) : ℝ) + 1 / ((c t (z t) : ℝ) + 1) := by
        rw [← sub_eq_iff_eq_add', ← Finset.sum_sub_distrib, Finset.sum_eq_single (z t)]
        · rw [hstep, if_pos rfl, harmonic_succ]
          push_cast
          ring
        · intro x _ hx
          rw [hstep, if_neg (Ne.symm hx), add_zero, sub_self]
        · intro h; exact absurd (hz t) h
      rw [hone, mul_add, mul_one_div]
      exact add_le_add ih (hu t)
  have hcT : ∀ t x, c t x ≤ t := by
    intro t x
    induction t with
    | zero => simp [hc, visits, dataOf]
    | succ t ih => rw [hstep]; split <;> omega
  have h1 : ∑ t ∈ Finset.range T, Real.sqrt (u t) ≤ Real.sqrt (T * ∑ t ∈ Finset.range T, u t) := by
    apply Real.le_sqrt_of_sq_le
    have := sq_sum_le_card_mul_sum_sq (s := Finset.range T) (f := fun t => Real.sqrt (u t))
    refine this.trans (le_of_eq ?_)
    rw [Finset.card_range]
    congr 1
    exact Finset.sum_congr rfl fun t _ => Real.sq_sqrt (hu0 t)
  refine h1.trans (Real.sqrt_le_sqrt (mul_le_mul_of_nonneg_left ((hsum T).trans ?_) (Nat.cast_nonneg _)))
  rw [mul_left_comm]
  refine mul_le_mul_of_nonneg_left ?_ hb
  rw [← nsmul_eq_mul]
  refine Finset.sum_le_card_nsmul _ _ _ fun x _ => ?_
  have h10 : (harmonic (c T x) : ℝ) ≤ harmonic T := by
    have hmono : Monotone harmonic := monotone_nat_of_le_succ fun m => by
      rw [harmonic_succ]
      have : (0 : ℚ) ≤ ((m + 1 : ℕ) : ℚ)⁻¹ := by positivity
      linarith
    exact_mod_cast hmono (hcT T x)
  exact h10.trans (harmonic_le_one_add_log _)

/-- The best value on a list as a random variable. -/
theorem bestOf_integrable {F : Pt d → Ω → ℝ} (hF : ∀ x, Integrable (F x) μ) (l : List (Pt d)) (hl : l ≠ []) :
    Integrable (fun ω => bestOf (fun x => F x ω) l) μ := by
  induction l with
  | nil => exact absurd rfl hl
  | cons x l ih =>
    rcases eq_or_ne l [] with h | h
    · subst h
      have : (fun ω => bestOf (fun x => F x ω) [x]) = F x := by
        funext ω
        exact le_antisymm (bestOf_le (by simp) (by simp)) (le_bestOf (f := fun x => F x ω) (by simp))
      rw [this]
      exact hF x
    · have : (fun ω => bestOf (fun x => F x ω) (x :: l)) = fun ω => max (F x ω) (bestOf (fun x => F x ω) l) := by
        funext ω
        refine le_antisymm (bestOf_le (by simp) fun y hy => ?_) (max_le (le_bestOf (f := fun x => F x ω) (by simp)) (bestOf_le h fun y hy =>
          le_bestOf (f := fun x => F x ω) (by simp [hy])))
        rcases List.mem_cons.1 hy with rfl | hy
        · exact le_max_left _ _
        · exact (le_bestOf (f := fun x => F x ω) hy).trans (le_max_right _ _)
      rw [this]
      exact (hF x).sup (ih h)

/-- The error of a prediction made from values measured at fixed points is Gaussian with the returned variance, and independent of the values. -/
theorem residual_law {k : KExpr ℝ (Pt d)} (hok : AllLeaves (LeafOK (d = 1)) k) (hq : AllLeaves NoNoise k)
    {F : Pt d → Ω → ℝ} (hF : IsRandomFunction μ k (fun _ => 0) F) (z : Nat → Pt d) {s : ℝ} (hs : 0 < s) {err : Nat → Ω → ℝ}
    (he : IsMeasurementError μ (fun _ => 0) F (fun _ => s) err) (T : Nat) (x : Pt d)
    (hG : HasGaussianLaw (fun ω => (fun _ : Fin 1 => F x ω, fun t : Fin T => F (z t) ω + err t ω)) μ) :
    μ.map (fun ω => F x ω - atMean (kcov k) (dataOf (fun _ => 0) z (fun _ => s) (fun t => F (z t) ω + err t ω) T) x) =
        gaussianReal 0 (atVar (kcov k) (dataOf (fun _ => 0) z (fun _ => s) 0 T) x).toNNReal ∧
      IndepFun (fun ω => F x ω - atMean (kcov k) (dataOf (fun _ => 0) z (fun _ => s) (fun t => F (z t) ω + err t ω) T) x)
        (fun ω (t : Fin T) => F (z t) ω + err t ω) μ := by
  obtain ⟨hpt, -, hvar, -⟩ := point_prediction hok hq z hs T
  rcases Nat.eq_zero_or_pos T with h0 | hT
  · subst h0
    obtain ⟨c, hc⟩ := cov_returns k (fun _ : Fin 1 => x) (fun _ : Fin 1 => x) one_pos
    have hm : ∀ v, atMean (kcov k) (dataOf (fun _ => 0) z (fun _ => s) v 0) x = 0 := fun v => by
      simp [atMean, dataOf, gpRegress, kcov, hc]
    have hvv : atVar (kcov k) (dataOf (fun _ => 0) z (fun _ => s) 0 0) x = max 0 (c 0 0) := by
      simp [atVar, dataOf, gpRegress, kcov, hc]
    simp only [hm, sub_zero, hvv]
    have hFG : HasGaussianLaw (F x) μ := hG.fst.eval 0
    have hcv : ∫ ω, F x ω * F x ω ∂μ = c 0 0 := by
      have := hF.cov (fun _ : Fin 1 => x) c hc 0 0
      simpa using this
    constructor
    · rw [hFG.map_eq_gaussianReal, hF.centre, variance_eq_integral hFG.aemeasurable, hF.centre]
      have : ∫ ω, (F x ω - 0) ^ 2 ∂μ = c 0 0 := by
        rw [← hcv]
        simp only [sub_zero, sq]
      rw [this]
      congr 1
      ext
      simp [max_comm]
    · have e : (fun ω (t : Fin 0) => F (z t) ω + err t ω) = fun _ => 0 := by
        funext ω t
        exact t.elim0
      rw [e]
      exact indepFun_const_right _ _
  · obtain ⟨pred, hp, hGR, hind⟩ := Props.C134_posterior k hok hq hF z (s := fun _ => s) (fun _ => hs) he hT (fun _ : Fin 1 => x) one_pos hG
    obtain ⟨pred', hp', hm, C, hC, hCi⟩ := Props.C134_covariance k hok hq hF z (s := fun _ => s) (fun _ => hs) he hT (fun _ : Fin 1 => x) one_pos
    have hpp : pred' = pred := by
      funext ω
      exact Except.ok.inj ((hp' ω).symm.trans (hp ω))
    subst hpp
    have hat : ∀ ω, atMean (kcov k) (dataOf (fun _ => 0) z (fun _ => s) (fun t => F (z t) ω + err t ω) T) x = (pred' ω).mu 0 ∧
        atVar (kcov k) (dataOf (fun _ => 0) z (fun _ => s) (fun t => F (z t) ω + err t ω) T) x = (pred' ω).sigma 0 := by
      intro ω
      have h : gpRegress (kcov k) (fun _ => 0) (dataOf (fun _ => 0) z (fun _ => s) (fun t => F (z t) ω + err t ω) T) (fun _ : Fin 1 => x) =
        .ok (pred' ω) := hp ω
      simp only [atMean, atVar, h, and_self]
    haveI : Nonempty Ω := μ.nonempty_of_neZero
    have hv : atVar (kcov k) (dataOf (fun _ => 0) z (fun _ => s) 0 T) x = C 0 0 := by
      rw [hvar 0 (fun t => F (z t) (Classical.arbitrary Ω) + err t (Classical.arbitrary Ω)), (hat _).2, (hC _).2]
    simp only [fun ω => (hat ω).1, hv]
    have hRG : HasGaussianLaw (fun ω => F x ω - (pred' ω).mu 0) μ := hGR.eval 0
    constructor
    · rw [hRG.map_eq_gaussianReal, (hm 0).2, variance_eq_integral hRG.aemeasurable, (hm 0).2]
      simp only [sub_zero, sq]
      rw [(hCi 0 0).2]
    · exact hind.comp (φ := fun v : Fin 1 → ℝ => v 0) (ψ := id) (by fun_prop) measurable_id

end Lop
