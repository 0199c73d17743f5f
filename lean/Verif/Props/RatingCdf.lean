import Verif.Proofs.AbsCdf

/-! # C124: the distribution of ratings (`AbsBoundProbit.cdf`) -/

namespace Lop.Props

open Lop.Spec MeasureTheory ProbabilityTheory

/-- C124: `cdf` is the distribution function of a rating: 0 up to 0, 1 from 1 on, between them strictly between 0 and 1 and
strictly increasing; differences are the integrals of what `likelihood` returns for one rating. -/
theorem C124_distribution {sigma v eps : ℝ} (hv : 0 < v) (he : 0 < eps) (he' : eps < 1 / 2) (f : ℝ) :
    (∀ y ≤ 0, absCdf sigma v eps y f = 0) ∧ (∀ y, 1 ≤ y → absCdf sigma v eps y f = 1) ∧
    (∀ y, 0 < y → y < 1 → 0 < absCdf sigma v eps y f ∧ absCdf sigma v eps y f < 1) ∧
    (∀ x y, 0 ≤ x → x < y → y ≤ 1 → absCdf sigma v eps x f < absCdf sigma v eps y f ∧
      absCdf sigma v eps y f - absCdf sigma v eps x f =
        ∫ q in x..y, absLikelihood sigma v eps [(q, (0 : Fin 1))] (fun _ => f)) := by
  obtain ⟨ha, hb⟩ := shapes_pos (sigma := sigma) hv he he' f
  refine ⟨fun y hy => ?_, fun y hy => ?_, fun y h0 h1 => ?_, fun x y hx hxy hy => ?_⟩
  · exact beta_mass_zero ha hb measurableSet_Iic fun x hx => .inl (le_trans hx hy)
  · have : ratingAbove (alphaBeta sigma v eps f).1 (alphaBeta sigma v eps f).2 y = 0 :=
      beta_mass_zero ha hb measurableSet_Ioi fun x hx => .inr (hy.trans hx.le)
    rw [absCdf_above hv he he', this, sub_zero]
  · have h2 := ratingAbove_pos ha hb h0 h1
    have h3 := ratingAbove_lt_one ha hb h0 h1
    rw [absCdf_above hv he he']
    constructor <;> linarith
  · have e : absCdf sigma v eps y f - absCdf sigma v eps x f =
        ∫ q in x..y, betaPDFReal (alphaBeta sigma v eps f).1 (alphaBeta sigma v eps f).2 q := beta_interval ha hb hxy.le
    have h2 := unit_integral hv he he' f (sigma := sigma) (fun _ => 1) hx hxy.le hy
    simp only [mul_one] at h2
    refine ⟨?_, by rw [e, h2]⟩
    have h3 : 0 < ∫ q in x..y, betaPDFReal (alphaBeta sigma v eps f).1 (alphaBeta sigma v eps f).2 q := by
      rw [intervalIntegral.integral_of_le hxy.le, integral_Ioc_eq_integral_Ioo]
      exact setIntegral_pos_of_Ioo measurableSet_Ioo hxy le_rfl (fun q _ => betaPDFReal_nonneg' ha hb q)
        (fun q hq => betaPDFReal_pos (lt_of_le_of_lt hx hq.1) (lt_of_lt_of_le hq.2 hy) ha hb)
        (integrable_beta ha hb).integrableOn
    linarith

/-- C124: the ratings of a better item are stochastically higher: whatever the limit, it is less likely to be rated at most so
high – strictly, unless `mean_link` is clipped to the same value. -/
theorem C124_better {sigma v eps : ℝ} (hs : 0 < sigma) (hv : 0 < v) (he : 0 < eps) (he' : eps < 1 / 2) {f f' : ℝ}
    (hf : f ≤ f') (y : ℝ) :
    absCdf sigma v eps y f' ≤ absCdf sigma v eps y f ∧
    (0 < y → y < 1 → meanLink sigma eps f ≠ meanLink sigma eps f' → absCdf sigma v eps y f' < absCdf sigma v eps y f) := by
  have hstrict : 0 < y → y < 1 → meanLink sigma eps f ≠ meanLink sigma eps f' →
      absCdf sigma v eps y f' < absCdf sigma v eps y f := by
    intro h0 h1 hne
    have hlt := lt_of_le_of_ne (meanLink_mono (eps := eps) hs hf) hne
    obtain ⟨ha, hb⟩ := shapes_pos (sigma := sigma) hv he he' f
    obtain ⟨ha', hb'⟩ := shapes_pos (sigma := sigma) hv he he' f'
    have h3 := mul_lt_mul_of_pos_left hlt hv
    have := ratingAbove_strict ha hb ha' hb' h3 (by simp only [alphaBeta]; linarith) h0 h1
    rw [absCdf_above hv he he', absCdf_above hv he he']
    linarith
  refine ⟨?_, hstrict⟩
  obtain ⟨h1, h2, -, -⟩ := C124_distribution (sigma := sigma) hv he he' f
  obtain ⟨h1', h2', -, -⟩ := C124_distribution (sigma := sigma) hv he he' f'
  rcases le_or_gt y 0 with h | h
  · rw [h1 y h, h1' y h]
  rcases le_or_gt 1 y with h3 | h3
  · rw [h2 y h3, h2' y h3]
  by_cases hne : meanLink sigma eps f = meanLink sigma eps f'
  · rw [absCdf, absCdf, alphaBeta, alphaBeta, hne]
  · exact (hstrict h h3 hne).le

/-- C124: strictly so for any two different values where nothing is clipped. -/
theorem C124_better_strict {sigma v eps : ℝ} (hs : 0 < sigma) (hv : 0 < v) (he : 0 < eps) (he' : eps < 1 / 2) {f f' : ℝ}
    (hf : f < f') (hr : RatingsInRange sigma eps [((0 : ℝ), (0 : Fin 1))] fun _ => f)
    (hr' : RatingsInRange sigma eps [((0 : ℝ), (0 : Fin 1))] fun _ => f') {y : ℝ} (h0 : 0 < y) (h1 : y < 1) :
    absCdf sigma v eps y f' < absCdf sigma v eps y f := by
  refine (C124_better hs hv he he' hf.le y).2 h0 h1 ?_
  rw [meanLink_of_inR (inR_of_range hr _ (List.mem_singleton_self _)),
    meanLink_of_inR (inR_of_range hr' _ (List.mem_singleton_self _))]
  have hi : 0 < isqrt2sig sigma := by unfold isqrt2sig; positivity
  exact (Phi_strictMono (mul_lt_mul_of_pos_right hf hi)).ne

/-- C124 refuted without the exception: two items far below (or any two values clipped to one) have the same distribution of
ratings. -/
theorem C124_clipped_false {sigma v eps : ℝ} (hs : 0 < sigma) {f f' : ℝ} (h : f / (Real.sqrt 2 * sigma) ≤ -30)
    (h' : f' / (Real.sqrt 2 * sigma) ≤ -30) (y : ℝ) : absCdf sigma v eps y f = absCdf sigma v eps y f' := by
  rw [div_eq_z] at h h'
  have e : meanLink sigma eps f = meanLink sigma eps f' := by
    rw [meanLink, meanLink, stdNormCdf, stdNormCdf]
    congr 2
    rw [npClip, npClip, max_eq_right h, max_eq_right h']
  rw [absCdf, absCdf, alphaBeta, alphaBeta, e]

/-- C124: the expected rating is `mean_link`, and the variance is that of a coin with this mean divided by `1 + v`: a rating
spreads like the mean of `1 + v` throws of this coin. -/
theorem C124_moments {sigma v eps : ℝ} (hv : 0 < v) (he : 0 < eps) (he' : eps < 1 / 2) (f : ℝ) :
    let p := fun q => absLikelihood sigma v eps [(q, (0 : Fin 1))] (fun _ => f)
    let mu := meanLink sigma eps f
    ∫ q in (0 : ℝ)..1, p q = 1 ∧ ∫ q in (0 : ℝ)..1, p q * q = mu ∧
      ∫ q in (0 : ℝ)..1, p q * (q - mu) ^ 2 = mu * (1 - mu) / (v + 1) := by
  intro p mu
  obtain ⟨ha, hb⟩ := shapes_pos (sigma := sigma) hv he he' f
  have hab : (alphaBeta sigma v eps f).1 + (alphaBeta sigma v eps f).2 = v := by simp [alphaBeta]
  have ea : (alphaBeta sigma v eps f).1 = v * mu := rfl
  have key : ∀ g : ℝ → ℝ, ∫ q in (0 : ℝ)..1, p q * g q =
      ∫ q, betaPDFReal (alphaBeta sigma v eps f).1 (alphaBeta sigma v eps f).2 q * g q := by
    intro g
    rw [unit_integral hv he he' f g le_rfl zero_le_one le_rfl, setIntegral_unit_beta]
  have h1 := key fun _ => 1
  simp only [mul_one] at h1
  rw [integral_beta ha hb] at h1
  have h2 := key fun q => q
  rw [beta_mean ha hb, hab, ea, mul_div_cancel_left₀ _ hv.ne'] at h2
  refine ⟨h1, h2, ?_⟩
  rw [key]
  have e : ∀ q, betaPDFReal (alphaBeta sigma v eps f).1 (alphaBeta sigma v eps f).2 q * (q - mu) ^ 2 =
      betaPDFReal (alphaBeta sigma v eps f).1 (alphaBeta sigma v eps f).2 q * q ^ 2 -
      (2 * mu * (betaPDFReal (alphaBeta sigma v eps f).1 (alphaBeta sigma v eps f).2 q * q) -
      mu ^ 2 * betaPDFReal (alphaBeta sigma v eps f).1 (alphaBeta sigma v eps f).2 q) := by
    intro q
    ring
  simp_rw [e]
  have i1 := (beta_integrable_id ha hb).const_mul (2 * mu)
  have i2 := (integrable_beta ha hb).const_mul (mu ^ 2)
  have i3 : Integrable fun q => 2 * mu * (betaPDFReal (alphaBeta sigma v eps f).1 (alphaBeta sigma v eps f).2 q * q) -
      mu ^ 2 * betaPDFReal (alphaBeta sigma v eps f).1 (alphaBeta sigma v eps f).2 q := i1.sub i2
  rw [integral_sub (beta_integrable_sq ha hb) i3, integral_sub i1 i2, integral_const_mul, integral_const_mul,
    beta_second ha hb, beta_mean ha hb, integral_beta ha hb, add_right_comm, hab, ea, mul_div_cancel_left₀ _ hv.ne']
  have : v + 1 ≠ 0 := by positivity
  field_simp
  ring

/-- `test_abs_bound_beta_cdf`: the probabilities of ratings up to 0.1, 0.2 and 0.5 for the values 0, 1 and 2 with the default
probit are strictly between 0 and 1. -/
example : ∀ p ∈ [((0.1 : ℝ), (0 : ℝ)), (0.2, 1), (0.5, 2)],
    0 < absCdf 1 80 1e-10 p.1 p.2 ∧ absCdf 1 80 1e-10 p.1 p.2 < 1 := by
  intro p hp
  refine (C124_distribution (by norm_num) (by norm_num) (by norm_num) p.2).2.2.1 p.1 ?_ ?_ <;>
  · simp only [List.mem_cons, List.not_mem_nil, or_false] at hp
    rcases hp with rfl | rfl | rfl <;> norm_num

/-- Of two items the better one is rated at most 1/2 less often. -/
example : absCdf 1 80 1e-10 (1 / 2) 1 ≤ absCdf 1 80 1e-10 (1 / 2) 0 :=
  (C124_better one_pos (by norm_num) (by norm_num) (by norm_num) zero_le_one _).1

end Lop.Props
