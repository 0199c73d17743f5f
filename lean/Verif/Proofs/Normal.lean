import Verif.Spec.Normal
import Mathlib.MeasureTheory.Integral.IntegralEqImproper
import Mathlib.MeasureTheory.Integral.IntervalIntegral.FundThmCalculus
import Mathlib.MeasureTheory.Integral.Gamma
import Mathlib.Analysis.SpecialFunctions.Gaussian.GaussianIntegral
import Mathlib.Analysis.Calculus.MeanValue
import Mathlib.Analysis.Real.Pi.Bounds
import Mathlib.Analysis.SpecialFunctions.Log.Deriv
import Mathlib.Analysis.Calculus.Deriv.MeanValue

/-! Facts about the standard normal density and distribution function. -/

namespace Lop

open MeasureTheory ProbabilityTheory Spec Set Filter Topology

theorem phi_eq (x : ℝ) : phi x = gaussianPDFReal 0 1 x := by
  simp [phi, gaussianPDFReal, div_eq_inv_mul]

theorem phi_pos (x : ℝ) : 0 < phi x := by
  rw [phi_eq]; exact gaussianPDFReal_pos 0 1 x one_ne_zero

theorem phi_neg (x : ℝ) : phi (-x) = phi x := by simp [phi]

theorem phi_lt_one (x : ℝ) : phi x < 1 := by
  unfold phi
  have h1 : Real.exp (-(x ^ 2) / 2) ≤ 1 := by
    rw [Real.exp_le_one_iff]; nlinarith [sq_nonneg x]
  have h2 : 1 < Real.sqrt (2 * Real.pi) := by
    rw [Real.lt_sqrt (by norm_num)]
    nlinarith [Real.pi_gt_three]
  rw [div_lt_one (by linarith)]
  linarith

theorem hasDerivAt_phi (x : ℝ) : HasDerivAt phi (-x * phi x) x := by
  have h : HasDerivAt (fun y : ℝ => -(y ^ 2) / 2) (-(2 * x) / 2) x := by
    have := ((hasDerivAt_id x).pow 2).neg.div_const 2
    simpa using this
  have := h.exp.div_const (Real.sqrt (2 * Real.pi))
  refine this.congr_deriv ?_
  simp only [phi]
  ring

theorem continuous_phi : Continuous phi :=
  continuous_iff_continuousAt.2 fun x => (hasDerivAt_phi x).continuousAt

theorem integrable_phi : Integrable phi := by
  have : phi = gaussianPDFReal 0 1 := funext phi_eq
  rw [this]; exact integrable_gaussianPDFReal 0 1

theorem Phi_eq_integral (x : ℝ) : Phi x = ∫ t in Iic x, phi t := by
  unfold Phi Measure.real
  rw [gaussianReal_apply_eq_integral 0 one_ne_zero, ENNReal.toReal_ofReal]
  · simp only [phi_eq]
  · exact integral_nonneg fun t => gaussianPDFReal_nonneg 0 1 t

theorem hasDerivAt_Phi (x : ℝ) : HasDerivAt Phi (phi x) x := by
  have h : ∀ y, Phi y = Phi 0 + ∫ t in (0 : ℝ)..y, phi t := by
    intro y
    rw [← intervalIntegral.integral_Iic_sub_Iic integrable_phi.integrableOn integrable_phi.integrableOn,
      Phi_eq_integral, Phi_eq_integral]
    ring
  have h' : Phi = fun y => Phi 0 + ∫ t in (0 : ℝ)..y, phi t := funext h
  rw [h']
  refine (HasDerivAt.const_add _ ?_)
  exact intervalIntegral.integral_hasDerivAt_right (continuous_phi.intervalIntegrable _ _)
    (continuous_phi.stronglyMeasurableAtFilter _ _) continuous_phi.continuousAt

theorem continuous_Phi : Continuous Phi :=
  continuous_iff_continuousAt.2 fun x => (hasDerivAt_Phi x).continuousAt

theorem Phi_strictMono : StrictMono Phi := by
  refine strictMono_of_deriv_pos fun x => ?_
  rw [(hasDerivAt_Phi x).deriv]; exact phi_pos x

theorem Phi_pos (x : ℝ) : 0 < Phi x :=
  lt_of_le_of_lt measureReal_nonneg (Phi_strictMono (show x - 1 < x by linarith))

theorem Phi_lt_one (x : ℝ) : Phi x < 1 :=
  lt_of_lt_of_le (Phi_strictMono (show x < x + 1 by linarith)) measureReal_le_one

theorem Phi_neg (x : ℝ) : Phi (-x) = 1 - Phi x := by
  have hmap : (gaussianReal 0 1).map (fun y => -y) = gaussianReal 0 1 := by
    rw [gaussianReal_map_neg]; simp
  have h1 : Phi (-x) = (gaussianReal 0 1).real (Ici x) := by
    unfold Phi
    conv_lhs => rw [← hmap]
    rw [map_measureReal_apply measurable_neg measurableSet_Iic]
    congr 1
    ext y; simp
  have : NullSingletonClass (gaussianReal 0 1) := nullSingletonClass_gaussianReal one_ne_zero
  have h2 : (gaussianReal 0 1).real (Ici x) = (gaussianReal 0 1).real (Ioi x) :=
    measureReal_congr Ioi_ae_eq_Ici.symm
  rw [h1, h2, ← compl_Iic, probReal_compl_eq_one_sub measurableSet_Iic]
  rfl

theorem Phi_zero : Phi 0 = 1 / 2 := by
  have := Phi_neg 0
  rw [neg_zero] at this
  linarith

/-- `z Φ(z) + φ(z) > 0`. -/
theorem mills (z : ℝ) : 0 < z * Phi z + phi z := by
  rcases le_or_gt 0 z with hz | hz
  · have := mul_nonneg hz (Phi_pos z).le
    linarith [phi_pos z]
  · -- φ tends to zero at -∞ and is decreasing there
    have htend : Tendsto phi atBot (𝓝 0) := by
      have h1 : Tendsto (fun x : ℝ => -(x ^ 2) / 2) atBot atBot := by
        have : Tendsto (fun x : ℝ => x ^ 2) atBot atTop := by
          have := tendsto_pow_atTop (α := ℝ) two_ne_zero
          have h := this.comp tendsto_neg_atBot_atTop
          refine h.congr fun x => ?_
          simp
        have h2 := tendsto_neg_atTop_atBot.comp this
        exact (h2.atBot_div_const (by norm_num : (0 : ℝ) < 2))
      have h3 := (Real.tendsto_exp_atBot.comp h1).div_const (Real.sqrt (2 * Real.pi))
      rw [zero_div] at h3
      exact h3
    have hnn : ∀ t ∈ Iic z, 0 ≤ -t * phi t := fun t ht =>
      mul_nonneg (by simp only [mem_Iic] at ht; linarith) (phi_pos t).le
    have hint : IntegrableOn (fun t => -t * phi t) (Iic z) := by
      have h0 : Integrable fun t : ℝ => t * Real.exp (-(1 / 2) * t ^ 2) :=
        integrable_mul_exp_neg_mul_sq (by norm_num)
      have h1 : (fun t => -t * phi t) = fun t : ℝ =>
          (-(Real.sqrt (2 * Real.pi))⁻¹) * (t * Real.exp (-(1 / 2) * t ^ 2)) := by
        funext t
        simp only [phi]
        rw [show -(t ^ 2) / 2 = -(1 / 2) * t ^ 2 by ring]
        ring
      rw [h1]
      exact (h0.const_mul _).integrableOn
    have hI : ∫ t in Iic z, -t * phi t = phi z := by
      have := integral_Iic_of_hasDerivAt_of_tendsto' (f := phi) (f' := fun t => -t * phi t) (a := z)
        (m := 0) (fun t _ => hasDerivAt_phi t) hint htend
      simpa using this
    have hint2 : IntegrableOn (fun t => -z * phi t) (Iic z) := (integrable_phi.const_mul _).integrableOn
    have hle : ∫ t in Iic z, -z * phi t < ∫ t in Iic z, -t * phi t := by
      have hsub : 0 < ∫ t in Iic z, (-t * phi t - -z * phi t) := by
        rw [setIntegral_pos_iff_support_of_nonneg_ae]
        · have hsupp : Iio z ⊆ Function.support (fun t => -t * phi t - -z * phi t) ∩ Iic z := by
            intro t ht
            simp only [mem_Iio] at ht
            refine ⟨?_, ht.le⟩
            simp only [Function.mem_support]
            have : -t * phi t - -z * phi t = (z - t) * phi t := by ring
            rw [this]
            exact (mul_pos (by linarith) (phi_pos t)).ne'
          refine lt_of_lt_of_le ?_ (measure_mono hsupp)
          simp
        · refine (ae_restrict_iff' measurableSet_Iic).2 (Eventually.of_forall fun t ht => ?_)
          simp only [mem_Iic] at ht
          have : -t * phi t - -z * phi t = (z - t) * phi t := by ring
          simp only [Pi.zero_apply, this]
          exact mul_nonneg (by linarith) (phi_pos t).le
        · exact hint.sub hint2
      rw [integral_sub hint hint2] at hsub
      linarith
    rw [hI, integral_const_mul, ← Phi_eq_integral] at hle
    linarith

end Lop
