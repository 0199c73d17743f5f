import Verif.Proofs.CovPSD
import Verif.Spec.AbsAlign
import Mathlib.Analysis.InnerProductSpace.PiL2
import Mathlib.MeasureTheory.Integral.IntegralEqImproper
import Mathlib.Analysis.SpecialFunctions.ImproperIntegrals
import Mathlib.Analysis.SpecialFunctions.Integrability.Basic
import Mathlib.Tactic.Linarith
import Mathlib.Tactic.Ring
import Mathlib.Tactic.FieldSimp
import Mathlib.Tactic.Positivity

/-! # Minus the Euclidean distance is conditionally positive semidefinite -/

namespace Lop

open Finset MeasureTheory Set Spec
open scoped RealInnerProductSpace

variable {M d : Nat}

/-- The integrand of the representation of the square root. -/
noncomputable def rootKernel (u : ℝ) : ℝ := (1 - Real.exp (-u)) * u ^ (-(3 / 2) : ℝ)

theorem rootKernel_pos {u : ℝ} (hu : 0 < u) : 0 < rootKernel u := by
  apply mul_pos
  · have : Real.exp (-u) < 1 := by rw [Real.exp_lt_one_iff]; linarith
    linarith
  · exact Real.rpow_pos_of_pos hu _

theorem measurable_rootKernel : Measurable rootKernel := by
  unfold rootKernel
  fun_prop

theorem integrable_rootKernel : IntegrableOn rootKernel (Ioi 0) := by
  have h1 : IntegrableOn rootKernel (Ioc 0 1) := by
    have hi : IntegrableOn (fun u : ℝ => u ^ (-(1 / 2) : ℝ)) (Ioc 0 1) := by
      have := intervalIntegral.intervalIntegrable_rpow' (a := 0) (b := 1) (r := -(1 / 2)) (by norm_num)
      rwa [intervalIntegrable_iff_integrableOn_Ioc_of_le (by norm_num)] at this
    refine Integrable.mono hi measurable_rootKernel.aestronglyMeasurable ?_
    refine (ae_restrict_iff' measurableSet_Ioc).2 (Filter.Eventually.of_forall fun u hu => ?_)
    rw [Real.norm_of_nonneg (rootKernel_pos hu.1).le, Real.norm_of_nonneg (Real.rpow_nonneg hu.1.le _)]
    have e : u ^ (-(1 / 2) : ℝ) = u * u ^ (-(3 / 2) : ℝ) := by
      conv_rhs => rw [← Real.rpow_one_add' hu.1.le (by norm_num)]
      norm_num
    rw [e, rootKernel]
    apply mul_le_mul_of_nonneg_right _ (Real.rpow_nonneg hu.1.le _)
    have := Real.add_one_le_exp (-u)
    linarith
  have h2 : IntegrableOn rootKernel (Ioi 1) := by
    have hi : IntegrableOn (fun u : ℝ => u ^ (-(3 / 2) : ℝ)) (Ioi 1) :=
      integrableOn_Ioi_rpow_of_lt (by norm_num) one_pos
    refine Integrable.mono hi measurable_rootKernel.aestronglyMeasurable ?_
    refine (ae_restrict_iff' measurableSet_Ioi).2 (Filter.Eventually.of_forall fun u hu => ?_)
    have hu0 : 0 < u := lt_trans one_pos hu
    rw [Real.norm_of_nonneg (rootKernel_pos hu0).le, Real.norm_of_nonneg (Real.rpow_nonneg hu0.le _),
      rootKernel]
    have := Real.exp_pos (-u)
    have := Real.rpow_pos_of_pos hu0 (-(3 / 2))
    nlinarith
  have := h1.union h2
  rwa [Ioc_union_Ioi_eq_Ioi (by norm_num)] at this

/-- The constant of the representation. -/
noncomputable def rootConst : ℝ := ∫ u in Ioi 0, rootKernel u

theorem rootConst_pos : 0 < rootConst := by
  rw [rootConst, setIntegral_pos_iff_support_of_nonneg_ae]
  · have : Set.Ioi (0 : ℝ) ⊆ Function.support rootKernel := fun u hu => (rootKernel_pos hu).ne'
    rw [inter_eq_right.2 this]
    simp
  · exact (ae_restrict_iff' measurableSet_Ioi).2
      (Filter.Eventually.of_forall fun u hu => (rootKernel_pos hu).le)
  · exact integrable_rootKernel

theorem rootKernel_scale {t u : ℝ} (ht : 0 < t) (hu : 0 < u) :
    (1 - Real.exp (-(u * t))) * u ^ (-(3 / 2) : ℝ) = t ^ (3 / 2 : ℝ) * rootKernel (t * u) := by
  rw [rootKernel, Real.mul_rpow ht.le hu.le, mul_comm u t]
  have : t ^ (3 / 2 : ℝ) * t ^ (-(3 / 2) : ℝ) = 1 := by
    rw [← Real.rpow_add ht]; norm_num
  linear_combination (-(1 - Real.exp (-(t * u))) * u ^ (-(3 / 2) : ℝ)) * this

theorem root_integrable {t : ℝ} (ht : 0 ≤ t) :
    IntegrableOn (fun u : ℝ => (1 - Real.exp (-(u * t))) * u ^ (-(3 / 2) : ℝ)) (Ioi 0) := by
  rcases ht.eq_or_lt with rfl | ht
  · simp
  · have : IntegrableOn (fun u => t ^ (3 / 2 : ℝ) * rootKernel (t * u)) (Ioi 0) := by
      apply Integrable.const_mul
      have := (integrableOn_Ioi_comp_mul_left_iff rootKernel 0 ht).2
      rw [mul_zero] at this
      exact this integrable_rootKernel
    exact this.congr_fun (fun u hu => (rootKernel_scale ht hu).symm) measurableSet_Ioi

theorem root_integral {t : ℝ} (ht : 0 ≤ t) :
    ∫ u in Ioi (0 : ℝ), (1 - Real.exp (-(u * t))) * u ^ (-(3 / 2) : ℝ) = √t * rootConst := by
  rcases ht.eq_or_lt with rfl | ht
  · simp
  · rw [setIntegral_congr_fun measurableSet_Ioi fun u hu => rootKernel_scale ht hu,
      integral_const_mul, integral_comp_mul_left_Ioi rootKernel 0 ht, mul_zero, ← rootConst, smul_eq_mul,
      ← mul_assoc]
    congr 1
    rw [← Real.rpow_neg_one, ← Real.rpow_add ht, Real.sqrt_eq_rpow]
    norm_num

theorem gauss_kernel_psd (e : Fin M → EuclideanSpace ℝ (Fin d)) (c : Fin M → ℝ) {s : ℝ} (hs : 0 ≤ s) :
    0 ≤ ∑ i, ∑ j, c i * c j * Real.exp (-(s * ‖e i - e j‖ ^ 2)) := by
  have hG : (Matrix.of fun i j => 2 * s * ⟪e i, e j⟫ : Matrix (Fin M) (Fin M) ℝ).PosSemidef := by
    refine Matrix.PosSemidef.of_dotProduct_mulVec_nonneg ?_ fun x => ?_
    · ext i j
      simp [real_inner_comm]
    · have : star x ⬝ᵥ Matrix.mulVec (Matrix.of fun i j => 2 * s * ⟪e i, e j⟫) x =
          2 * s * ‖∑ i, x i • e i‖ ^ 2 := by
        rw [← real_inner_self_eq_norm_sq, sum_inner, mul_sum]
        simp only [dotProduct, Matrix.mulVec, Matrix.of_apply, Pi.star_apply, star_trivial,
          real_inner_smul_left, inner_sum, real_inner_smul_right, mul_sum]
        refine sum_congr rfl fun i _ => sum_congr rfl fun j _ => ?_
        ring
      rw [this]
      positivity
  have h := (psd_exp hG).dotProduct_mulVec_nonneg fun i => c i * Real.exp (-(s * ‖e i‖ ^ 2))
  refine h.trans_eq (Eq.symm ?_)
  simp only [dotProduct, Matrix.mulVec, Matrix.of_apply, Pi.star_apply, star_trivial, mul_sum]
  refine sum_congr rfl fun i _ => sum_congr rfl fun j _ => ?_
  have : Real.exp (-(s * ‖e i - e j‖ ^ 2)) =
      Real.exp (-(s * ‖e i‖ ^ 2)) * Real.exp (2 * s * ⟪e i, e j⟫) * Real.exp (-(s * ‖e j‖ ^ 2)) := by
    rw [← Real.exp_add, ← Real.exp_add, norm_sub_sq_real]
    congr 1
    ring
  rw [this]
  ring

/-- Minus the Euclidean distance is conditionally positive semidefinite. -/
theorem condPSD_neg_dist (e : Fin M → EuclideanSpace ℝ (Fin d)) : CondPSD fun i j => -‖e i - e j‖ := by
  refine ⟨fun i j => by simp only [norm_sub_rev (e i)], fun c hc => ?_⟩
  have hcc : ∑ i, ∑ j, c i * c j = 0 := by
    simp only [← mul_sum, hc, mul_zero, sum_const_zero]
  have key : rootConst * ∑ i, ∑ j, c i * c j * -‖e i - e j‖ =
      ∫ u in Ioi (0 : ℝ), ∑ i, ∑ j, c i * c j *
        -((1 - Real.exp (-(u * ‖e i - e j‖ ^ 2))) * u ^ (-(3 / 2) : ℝ)) := by
    rw [integral_finset_sum, mul_sum]
    · refine sum_congr rfl fun i _ => ?_
      rw [integral_finset_sum, mul_sum]
      · refine sum_congr rfl fun j _ => ?_
        rw [integral_const_mul, integral_neg, root_integral (sq_nonneg _), Real.sqrt_sq (norm_nonneg _)]
        ring
      · intro j _
        exact ((root_integrable (sq_nonneg _)).neg).const_mul _
    · intro i _
      refine integrable_finset_sum _ fun j _ => ?_
      exact ((root_integrable (sq_nonneg _)).neg).const_mul _
  have hn : 0 ≤ rootConst * ∑ i, ∑ j, c i * c j * -‖e i - e j‖ := by
    rw [key]
    refine setIntegral_nonneg measurableSet_Ioi fun u hu => ?_
    have hg := gauss_kernel_psd e c (le_of_lt hu)
    have : ∑ i, ∑ j, c i * c j * -((1 - Real.exp (-(u * ‖e i - e j‖ ^ 2))) * u ^ (-(3 / 2) : ℝ)) =
        u ^ (-(3 / 2) : ℝ) * (∑ i, ∑ j, c i * c j * Real.exp (-(u * ‖e i - e j‖ ^ 2)) -
          ∑ i, ∑ j, c i * c j) := by
      rw [← sum_sub_distrib, mul_sum]
      refine sum_congr rfl fun i _ => ?_
      rw [← sum_sub_distrib, mul_sum]
      refine sum_congr rfl fun j _ => ?_
      ring
    rw [this, hcc, sub_zero]
    exact mul_nonneg (Real.rpow_nonneg (le_of_lt hu) _) hg
  exact nonneg_of_mul_nonneg_right hn rootConst_pos

end Lop
