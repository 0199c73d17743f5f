import Verif.Model.AbsCdf
import Verif.Proofs.AbsInfo

/-! # Helper lemmas: the distribution of ratings -/

namespace Lop

open MeasureTheory ProbabilityTheory Spec

theorem shapes_pos {sigma v eps : ℝ} (hv : 0 < v) (he : 0 < eps) (he' : eps < 1 / 2) (f : ℝ) :
    0 < (alphaBeta sigma v eps f).1 ∧ 0 < (alphaBeta sigma v eps f).2 := by
  obtain ⟨h1, h2⟩ := meanLink_mem (sigma := sigma) he he' f
  refine ⟨mul_pos hv h1, ?_⟩
  simp only [alphaBeta]
  nlinarith

theorem absCdf_above {sigma v eps : ℝ} (hv : 0 < v) (he : 0 < eps) (he' : eps < 1 / 2) (y f : ℝ) :
    absCdf sigma v eps y f = 1 - ratingAbove (alphaBeta sigma v eps f).1 (alphaBeta sigma v eps f).2 y := by
  obtain ⟨ha, hb⟩ := shapes_pos (sigma := sigma) hv he he' f
  rw [absCdf, ← setIntegral_beta ha hb measurableSet_Iic, ratingAbove_compl ha hb]

theorem beta_mass_zero {a b : ℝ} (ha : 0 < a) (hb : 0 < b) {s : Set ℝ} (hs : MeasurableSet s)
    (h : ∀ x ∈ s, x ≤ 0 ∨ 1 ≤ x) : (betaMeasure a b).real s = 0 := by
  rw [← setIntegral_beta ha hb hs]
  refine setIntegral_eq_zero_of_forall_eq_zero fun x hx => ?_
  rw [betaPDFReal, if_neg fun h' => (h x hx).elim (fun h => absurd h'.1 h.not_gt) fun h => absurd h'.2 h.not_gt]

theorem beta_interval {a b : ℝ} (ha : 0 < a) (hb : 0 < b) {x y : ℝ} (hxy : x ≤ y) :
    (betaMeasure a b).real (Set.Iic y) - (betaMeasure a b).real (Set.Iic x) = ∫ q in x..y, betaPDFReal a b q := by
  rw [← setIntegral_beta ha hb measurableSet_Iic, ← setIntegral_beta ha hb measurableSet_Iic,
    intervalIntegral.integral_Iic_sub_Iic (integrable_beta ha hb).integrableOn (integrable_beta ha hb).integrableOn]

theorem beta_shift {a b : ℝ} (ha : 0 < a) (hb : 0 < b) (q : ℝ) :
    betaPDFReal a b q * q = a / (a + b) * betaPDFReal (a + 1) b q := by
  by_cases h : 0 < q ∧ q < 1
  · rw [betaPDFReal, if_pos h, betaPDFReal, if_pos h]
    have e1 : q ^ (a + 1 - 1) = q ^ (a - 1) * q := by
      rw [← Real.rpow_add_one h.1.ne']
      congr 1
      ring
    have g1 := Real.Gamma_add_one ha.ne'
    have g2 : Real.Gamma (a + 1 + b) = (a + b) * Real.Gamma (a + b) := by
      rw [← Real.Gamma_add_one (by positivity)]
      congr 1
      ring
    have p1 := Real.Gamma_pos_of_pos ha
    have p2 := Real.Gamma_pos_of_pos hb
    have p3 := Real.Gamma_pos_of_pos (add_pos ha hb)
    rw [e1, beta, beta, g1, g2]
    field_simp
  · rw [betaPDFReal, if_neg h, betaPDFReal, if_neg h]
    ring

theorem beta_mean {a b : ℝ} (ha : 0 < a) (hb : 0 < b) : ∫ q, betaPDFReal a b q * q = a / (a + b) := by
  simp_rw [beta_shift ha hb]
  rw [integral_const_mul, integral_beta (by positivity) hb, mul_one]

theorem beta_second {a b : ℝ} (ha : 0 < a) (hb : 0 < b) :
    ∫ q, betaPDFReal a b q * q ^ 2 = a / (a + b) * ((a + 1) / (a + 1 + b)) := by
  have : ∀ q, betaPDFReal a b q * q ^ 2 = a / (a + b) * (betaPDFReal (a + 1) b q * q) := by
    intro q
    rw [pow_two, ← mul_assoc, beta_shift ha hb, mul_assoc]
  simp_rw [this]
  rw [integral_const_mul, beta_mean (by positivity) hb]

theorem beta_integrable_id {a b : ℝ} (ha : 0 < a) (hb : 0 < b) : Integrable fun q => betaPDFReal a b q * q := by
  simp_rw [beta_shift ha hb]
  exact (integrable_beta (by positivity) hb).const_mul _

theorem beta_integrable_sq {a b : ℝ} (ha : 0 < a) (hb : 0 < b) : Integrable fun q => betaPDFReal a b q * q ^ 2 := by
  have : ∀ q, betaPDFReal a b q * q ^ 2 = a / (a + b) * (betaPDFReal (a + 1) b q * q) := by
    intro q
    rw [pow_two, ← mul_assoc, beta_shift ha hb, mul_assoc]
  simp_rw [this]
  exact (beta_integrable_id (by positivity) hb).const_mul _

theorem absLikelihood_one {sigma v eps : ℝ} (hv : 0 < v) (he : 0 < eps) (he' : eps < 1 / 2) (f : ℝ) {q : ℝ} (h0 : 0 < q)
    (h1 : q < 1) : absLikelihood sigma v eps [(q, (0 : Fin 1))] (fun _ => f) =
      betaPDFReal (alphaBeta sigma v eps f).1 (alphaBeta sigma v eps f).2 q := by
  obtain ⟨ha, hb⟩ := shapes_pos (sigma := sigma) hv he he' f
  simp only [absLikelihood, absLogLik, List.map_cons, List.map_nil, Finset.univ_unique, Fin.default_eq_zero,
    Finset.sum_singleton]
  have : assignVec [((0 : Fin 1), absPy sigma v eps q f)] 0 = absPy sigma v eps q f := by simp [assignVec]
  rw [this, absPy, Real.exp_log (betaPDFReal_pos h0 h1 ha hb)]

theorem unit_integral {sigma v eps : ℝ} (hv : 0 < v) (he : 0 < eps) (he' : eps < 1 / 2) (f : ℝ) (g : ℝ → ℝ) {x y : ℝ}
    (hx : 0 ≤ x) (hxy : x ≤ y) (hy : y ≤ 1) :
    ∫ q in x..y, absLikelihood sigma v eps [(q, (0 : Fin 1))] (fun _ => f) * g q =
      ∫ q in x..y, betaPDFReal (alphaBeta sigma v eps f).1 (alphaBeta sigma v eps f).2 q * g q := by
  rw [intervalIntegral.integral_of_le hxy, intervalIntegral.integral_of_le hxy, integral_Ioc_eq_integral_Ioo,
    integral_Ioc_eq_integral_Ioo]
  refine setIntegral_congr_fun measurableSet_Ioo fun q hq => ?_
  rw [absLikelihood_one hv he he' f (lt_of_le_of_lt hx hq.1) (lt_of_lt_of_le hq.2 hy)]

end Lop
