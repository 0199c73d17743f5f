import Verif.Model.Laplace
import Verif.Spec.Calculus
import Verif.Spec.Laplace
import Verif.Proofs.GP
import Verif.Proofs.PrefProbit
import Mathlib.Analysis.Calculus.FDeriv.Pi
import Mathlib.Analysis.Calculus.FDeriv.Mul
import Mathlib.Analysis.Calculus.FDeriv.Add
import Mathlib.Analysis.Calculus.FDeriv.Comp
import Mathlib.Analysis.Convex.Deriv
import Mathlib.Analysis.InnerProductSpace.PiL2
import Mathlib.Topology.Order.Compact
import Mathlib.Analysis.Normed.Module.FiniteDimension

/-! Matrix identities of the Laplace approximation; gradients under linear maps. -/

namespace Lop

open Matrix Spec

section matrices

variable {n t : Nat}

/-- `(I + W K)⁻¹ W = K⁻¹ - K⁻¹ (K⁻¹ + W)⁻¹ K⁻¹`. -/
theorem laplace_reduction {K W : Matrix (Fin t) (Fin t) ℝ} (hK : K.PosDef) (hS : (K⁻¹ + W).PosDef) :
    IsUnit (1 + W * K).det ∧ (1 + W * K)⁻¹ * W = K⁻¹ - K⁻¹ * ((K⁻¹ + W)⁻¹ * K⁻¹) := by
  have hKd : IsUnit K.det := (isUnit_iff_isUnit_det _).1 hK.isUnit
  have hSd : IsUnit (K⁻¹ + W).det := (isUnit_iff_isUnit_det _).1 hS.isUnit
  have e : 1 + W * K = (K⁻¹ + W) * K := by
    rw [Matrix.add_mul, nonsing_inv_mul _ hKd]
  refine ⟨by rw [e, det_mul]; exact hSd.mul hKd, ?_⟩
  rw [e, Matrix.mul_inv_rev, Matrix.mul_assoc]
  have h1 : (K⁻¹ + W)⁻¹ * W = 1 - (K⁻¹ + W)⁻¹ * K⁻¹ := by
    have h2 : (K⁻¹ + W)⁻¹ * (K⁻¹ + W) = 1 := nonsing_inv_mul _ hSd
    rw [Matrix.mul_add] at h2
    rw [← h2]; abel
  rw [h1, Matrix.mul_sub, Matrix.mul_one]

theorem laplace_reduction_psd {K W : Matrix (Fin t) (Fin t) ℝ} (hK : K.PosDef) (hW : W.PosSemidef) :
    (K⁻¹ - K⁻¹ * ((K⁻¹ + W)⁻¹ * K⁻¹)).PosSemidef := by
  have hS : (K⁻¹ + W).PosDef := hK.inv.add_posSemidef hW
  have hsym : (K⁻¹)ᵀ = K⁻¹ := by
    rw [← conjTranspose_eq_transpose_of_trivial]; exact hK.inv.isHermitian
  have hb : (fromBlocks K⁻¹ K⁻¹ (K⁻¹)ᴴ (K⁻¹ + W)).PosSemidef := by
    have hKd : IsUnit K.det := (isUnit_iff_isUnit_det _).1 hK.isUnit
    have : Invertible K⁻¹ := hK.inv.isUnit.invertible
    refine (PosDef.fromBlocks₁₁ _ _ hK.inv).2 ?_
    rw [conjTranspose_eq_transpose_of_trivial, hsym, nonsing_inv_nonsing_inv _ hKd,
      nonsing_inv_mul _ hKd, Matrix.one_mul, add_sub_cancel_left]
    exact hW
  have := schur_psd hb hS
  rwa [hsym] at this

/-- The posterior covariance: at least zero, at most the prior. -/
theorem laplace_posterior_psd {K W : Matrix (Fin t) (Fin t) ℝ} {Ks : Matrix (Fin n) (Fin t) ℝ}
    {Kss : Matrix (Fin n) (Fin n) ℝ} (hK : K.PosDef) (hW : W.PosSemidef)
    (hJ : (fromBlocks Kss Ks Ksᴴ K).PosSemidef) :
    (Kss - (Ks * (1 + W * K)⁻¹) * (W * Ksᵀ)).PosSemidef ∧
      (Kss - (Kss - (Ks * (1 + W * K)⁻¹) * (W * Ksᵀ))).PosSemidef := by
  have hS : (K⁻¹ + W).PosDef := hK.inv.add_posSemidef hW
  have hsym : (K⁻¹)ᵀ = K⁻¹ := by
    rw [← conjTranspose_eq_transpose_of_trivial]; exact hK.inv.isHermitian
  have e : (Ks * (1 + W * K)⁻¹) * (W * Ksᵀ) = Ks * ((K⁻¹ - K⁻¹ * ((K⁻¹ + W)⁻¹ * K⁻¹)) * Ksᵀ) := by
    rw [← (laplace_reduction hK hS).2]
    simp only [Matrix.mul_assoc]
  constructor
  · have h1 := schur_psd hJ hK
    have h2 := hS.inv.posSemidef.mul_mul_conjTranspose_same (Ks * K⁻¹)
    rw [conjTranspose_eq_transpose_of_trivial, transpose_mul, hsym] at h2
    convert h1.add h2 using 1
    rw [e]
    simp only [Matrix.sub_mul, Matrix.mul_sub, Matrix.mul_assoc]
    abel
  · rw [sub_sub_cancel, e]
    have := (laplace_reduction_psd hK hW).mul_mul_conjTranspose_same Ks
    rwa [conjTranspose_eq_transpose_of_trivial, Matrix.mul_assoc] at this

end matrices

section gradients

variable {n d : Nat}

theorem Spec.IsGradientAt.add' {f f' : (Fin n → ℝ) → ℝ} {g g' F : Fin n → ℝ} (h : IsGradientAt f g F)
    (h' : IsGradientAt f' g' F) : IsGradientAt (fun x => f x + f' x) (g + g') F := by
  refine (HasFDerivAt.add h h').congr_fderiv ?_
  simp [add_smul, Finset.sum_add_distrib]

theorem Spec.IsGradientAt.add_const' {f : (Fin n → ℝ) → ℝ} {g F : Fin n → ℝ} (h : IsGradientAt f g F)
    (c : ℝ) : IsGradientAt (fun x => f x + c) g F := HasFDerivAt.add_const c h

theorem isGradientAt_const (c : ℝ) (F : Fin n → ℝ) : IsGradientAt (fun _ => c) 0 F := by
  refine (hasFDerivAt_const c F).congr_fderiv ?_
  simp

/-- A linear form. -/
theorem isGradientAt_linear (a F : Fin n → ℝ) : IsGradientAt (fun x => a ⬝ᵥ x) a F := by
  have := (∑ i, a i • (ContinuousLinearMap.proj i : (Fin n → ℝ) →L[ℝ] ℝ)).hasFDerivAt (x := F)
  refine this.congr_of_eventuallyEq (.of_forall fun x => ?_)
  simp [dotProduct, ContinuousLinearMap.sum_apply]

theorem Spec.IsGradientAt.apply {f : (Fin n → ℝ) → ℝ} {g F : Fin n → ℝ} (h : IsGradientAt f g F) :
    HasFDerivAt f (∑ i, g i • (ContinuousLinearMap.proj i : (Fin n → ℝ) →L[ℝ] ℝ)) F := h

/-- A quadratic form with symmetric matrix. -/
theorem isGradientAt_quadratic {A : Matrix (Fin n) (Fin n) ℝ} (hA : Aᵀ = A) (F : Fin n → ℝ) :
    IsGradientAt (fun x => -(1 / 2 * (x ⬝ᵥ (A *ᵥ x)))) (-(A *ᵥ F)) F := by
  have h1 : ∀ i, HasFDerivAt (fun x : Fin n → ℝ => x i) (ContinuousLinearMap.proj i : (Fin n → ℝ) →L[ℝ] ℝ) F :=
    fun i => (ContinuousLinearMap.proj i : (Fin n → ℝ) →L[ℝ] ℝ).hasFDerivAt
  have h2 : ∀ i, HasFDerivAt (fun x : Fin n → ℝ => (A *ᵥ x) i)
      (∑ j, A i j • (ContinuousLinearMap.proj j : (Fin n → ℝ) →L[ℝ] ℝ)) F :=
    fun i => isGradientAt_linear (A i) F
  have h3 : HasFDerivAt (fun x : Fin n → ℝ => x ⬝ᵥ (A *ᵥ x)) _ F :=
    HasFDerivAt.fun_sum (u := Finset.univ) fun i _ => (h1 i).mul (h2 i)
  refine ((h3.const_mul (1 / 2)).neg).congr_fderiv ?_
  refine ContinuousLinearMap.ext fun x => ?_
  simp only [ContinuousLinearMap.sum_apply, ContinuousLinearMap.smul_apply, ContinuousLinearMap.add_apply,
    ContinuousLinearMap.neg_apply, ContinuousLinearMap.proj_apply, smul_eq_mul, Pi.neg_apply]
  have hs : ∑ i, (F i * ∑ j, A i j * x j) = ∑ i, (A *ᵥ F) i * x i := by
    simp only [mulVec, dotProduct, Finset.mul_sum, Finset.sum_mul]
    rw [Finset.sum_comm]
    refine Finset.sum_congr rfl fun i _ => Finset.sum_congr rfl fun j _ => ?_
    have : A j i = A i j := congrFun (congrFun hA i) j
    rw [this]; ring
  rw [Finset.sum_add_distrib, hs]
  simp only [neg_mul, Finset.sum_neg_distrib]
  ring

/-- Chain rule for a linear map. -/
theorem Spec.IsGradientAt.comp_mulVec {f : (Fin n → ℝ) → ℝ} {g : Fin n → ℝ} (X : Matrix (Fin n) (Fin d) ℝ)
    (w : Fin d → ℝ) (h : IsGradientAt f g (X *ᵥ w)) :
    IsGradientAt (fun w => f (X *ᵥ w)) (g ᵥ* X) w := by
  have h2 : HasFDerivAt (fun w : Fin d → ℝ => X *ᵥ w)
      (ContinuousLinearMap.pi fun i => ∑ j, X i j • (ContinuousLinearMap.proj j : (Fin d → ℝ) →L[ℝ] ℝ)) w :=
    hasFDerivAt_pi.2 fun i => isGradientAt_linear (X i) w
  refine (HasFDerivAt.comp w h h2).congr_fderiv ?_
  refine ContinuousLinearMap.ext fun x => ?_
  simp only [ContinuousLinearMap.comp_apply, ContinuousLinearMap.sum_apply, ContinuousLinearMap.smul_apply,
    ContinuousLinearMap.proj_apply, ContinuousLinearMap.pi_apply, smul_eq_mul, vecMul, dotProduct,
    Finset.mul_sum, Finset.sum_mul]
  rw [Finset.sum_comm]
  exact Finset.sum_congr rfl fun i _ => Finset.sum_congr rfl fun j _ => by ring

theorem Spec.IsHessianAt.add' {f f' : (Fin n → ℝ) → ℝ} {H H' : Fin n → Fin n → ℝ} {F : Fin n → ℝ}
    (h : IsHessianAt f H F) (h' : IsHessianAt f' H' F) :
    IsHessianAt (fun x => f x + f' x) (fun i j => H i j + H' i j) F := by
  obtain ⟨G, hG, hJ⟩ := h
  obtain ⟨G', hG', hJ'⟩ := h'
  refine ⟨fun x => G x + G' x, ?_, fun i => ?_⟩
  · filter_upwards [hG, hG'] with x hx hx' using hx.add' hx'
  · exact (hJ i).add' (hJ' i)

theorem isHessianAt_const (c : ℝ) (F : Fin n → ℝ) : IsHessianAt (fun _ => c) (fun _ _ => 0) F :=
  ⟨fun _ => 0, .of_forall fun _ => isGradientAt_const c _, fun _ => isGradientAt_const 0 F⟩

theorem isHessianAt_quadratic {A : Matrix (Fin n) (Fin n) ℝ} (hA : Aᵀ = A) (F : Fin n → ℝ) :
    IsHessianAt (fun x => -(1 / 2 * (x ⬝ᵥ (A *ᵥ x)))) (fun i j => -A i j) F := by
  refine ⟨fun x => -(A *ᵥ x), .of_forall fun x => isGradientAt_quadratic hA x, fun i => ?_⟩
  have := isGradientAt_linear (-(A i)) F
  refine this.congr (.of_forall fun x => ?_) rfl
  simp [mulVec]

theorem Spec.IsHessianAt.comp_mulVec {f : (Fin n → ℝ) → ℝ} {H : Matrix (Fin n) (Fin n) ℝ}
    (X : Matrix (Fin n) (Fin d) ℝ) (w : Fin d → ℝ) (h : IsHessianAt f H (X *ᵥ w)) :
    IsHessianAt (fun w => f (X *ᵥ w)) (Xᵀ * H * X) w := by
  obtain ⟨G, hG, hJ⟩ := h
  have hc : Continuous fun w : Fin d → ℝ => X *ᵥ w := by
    refine continuous_pi fun i => ?_
    simp only [mulVec, dotProduct]
    fun_prop
  refine ⟨fun w => G (X *ᵥ w) ᵥ* X, ?_, fun k => ?_⟩
  · filter_upwards [hc.continuousAt.eventually hG] with w hw using hw.comp_mulVec X w
  · have h1 : ∀ i, IsGradientAt (fun w => G (X *ᵥ w) i) (H i ᵥ* X) w := fun i => (hJ i).comp_mulVec X w
    have h2 : HasFDerivAt (fun w => ∑ i, G (X *ᵥ w) i * X i k) _ w :=
      HasFDerivAt.fun_sum (u := Finset.univ) fun i _ => (h1 i).apply.mul_const (X i k)
    refine HasFDerivAt.congr_fderiv (f := fun w => (G (X *ᵥ w) ᵥ* X) k) h2 ?_
    refine ContinuousLinearMap.ext fun x => ?_
    simp only [ContinuousLinearMap.sum_apply, ContinuousLinearMap.smul_apply,
      ContinuousLinearMap.proj_apply, smul_eq_mul, Matrix.mul_apply, transpose_apply, vecMul, dotProduct]
    simp only [Finset.mul_sum, Finset.sum_mul]
    rw [Finset.sum_comm]
    refine Finset.sum_congr rfl fun j _ => ?_
    rw [Finset.sum_comm]
    exact Finset.sum_congr rfl fun i _ => Finset.sum_congr rfl fun l _ => by ring

/-- Tangent inequality of a concave function. -/
theorem concave_tangent {f : (Fin n → ℝ) → ℝ} (hf : ConcaveOn ℝ Set.univ f) {g F : Fin n → ℝ}
    (h : IsGradientAt f g F) (G : Fin n → ℝ) : f G ≤ f F + g ⬝ᵥ (G - F) := by
  have hl : HasDerivAt (fun t : ℝ => F + t • (G - F)) (G - F) 0 := by
    have := ((hasDerivAt_id (0 : ℝ)).smul_const (G - F)).const_add F
    simpa using this
  have hd : HasDerivAt (fun t : ℝ => f (F + t • (G - F))) (g ⬝ᵥ (G - F)) 0 := by
    have h0 : HasFDerivAt f (∑ i, g i • (ContinuousLinearMap.proj i : (Fin n → ℝ) →L[ℝ] ℝ))
        (F + (0 : ℝ) • (G - F)) := by rw [zero_smul, add_zero]; exact h
    have := h0.comp_hasDerivAt (0 : ℝ) hl
    refine this.congr_deriv ?_
    simp [ContinuousLinearMap.sum_apply, dotProduct]
  have hc : ConcaveOn ℝ Set.univ (fun t : ℝ => f (F + t • (G - F))) := by
    refine ⟨convex_univ, fun x _ y _ a b ha hb hab => ?_⟩
    have := hf.2 (Set.mem_univ (F + x • (G - F))) (Set.mem_univ (F + y • (G - F))) ha hb hab
    convert this using 2
    funext i
    have : F i = a * F i + b * F i := by rw [← add_mul, hab, one_mul]
    simp only [Pi.add_apply, Pi.smul_apply, smul_eq_mul, Pi.sub_apply]
    linear_combination this
  have hs := hc.slope_le_of_hasDerivAt (Set.mem_univ 0) (Set.mem_univ 1) one_pos hd
  rw [slope_def_field] at hs
  simp only [one_smul, zero_smul, add_zero, add_sub_cancel, sub_zero, div_one] at hs
  linarith

/-- Second order expansion of the quadratic form of a symmetric matrix (exact). -/
theorem quadratic_expand {A : Matrix (Fin n) (Fin n) ℝ} (hA : Aᵀ = A) (F G : Fin n → ℝ) :
    -(1 / 2 * (G ⬝ᵥ (A *ᵥ G))) =
      -(1 / 2 * (F ⬝ᵥ (A *ᵥ F))) + (-(A *ᵥ F)) ⬝ᵥ (G - F) - 1 / 2 * ((G - F) ⬝ᵥ (A *ᵥ (G - F))) := by
  have hs : F ⬝ᵥ (A *ᵥ G) = G ⬝ᵥ (A *ᵥ F) := by
    rw [dotProduct_mulVec, ← mulVec_transpose, hA, dotProduct_comm]
  have h2 : (A *ᵥ F) ⬝ᵥ G = G ⬝ᵥ (A *ᵥ F) := dotProduct_comm _ _
  have h3 : (A *ᵥ F) ⬝ᵥ F = F ⬝ᵥ (A *ᵥ F) := dotProduct_comm _ _
  simp only [mulVec_sub, dotProduct_sub, sub_dotProduct, neg_dotProduct, hs, h2, h3]
  ring

/-- A positive definite form is bounded below by a multiple of the squared norm. -/
theorem posDef_lower {A : Matrix (Fin n) (Fin n) ℝ} (hA : A.PosDef) :
    ∃ c : ℝ, 0 < c ∧ ∀ F : Fin n → ℝ, c * ‖F‖ ^ 2 ≤ F ⬝ᵥ (A *ᵥ F) := by
  have hpos : ∀ F : Fin n → ℝ, F ≠ 0 → 0 < F ⬝ᵥ (A *ᵥ F) := by
    intro F hF
    have := hA.dotProduct_mulVec_pos hF
    simpa using this
  have hcont : Continuous fun F : Fin n → ℝ => F ⬝ᵥ (A *ᵥ F) := by
    simp only [mulVec, dotProduct]
    fun_prop
  have hscale : ∀ F : Fin n → ℝ, F ≠ 0 → ∃ U ∈ Metric.sphere (0 : Fin n → ℝ) 1,
      F ⬝ᵥ (A *ᵥ F) = ‖F‖ ^ 2 * (U ⬝ᵥ (A *ᵥ U)) := by
    intro F hF
    have hn : ‖F‖ ≠ 0 := norm_ne_zero_iff.2 hF
    refine ⟨‖F‖⁻¹ • F, by simp [norm_smul, hn], ?_⟩
    simp only [mulVec_smul, dotProduct_smul, smul_dotProduct, smul_eq_mul]
    field_simp
  rcases (Metric.sphere (0 : Fin n → ℝ) 1).eq_empty_or_nonempty with he | hne
  · refine ⟨1, one_pos, fun F => ?_⟩
    by_cases hF : F = 0
    · subst hF; simp
    · obtain ⟨U, hU, -⟩ := hscale F hF
      rw [he] at hU; exact absurd hU (Set.notMem_empty _)
  · obtain ⟨U, hU, hmin⟩ := (isCompact_sphere (0 : Fin n → ℝ) 1).exists_isMinOn hne hcont.continuousOn
    have hU0 : U ≠ 0 := by
      rintro rfl
      simp at hU
    refine ⟨_, hpos U hU0, fun F => ?_⟩
    by_cases hF : F = 0
    · subst hF; simp
    · obtain ⟨V, hV, e⟩ := hscale F hF
      rw [e, mul_comm]
      exact mul_le_mul_of_nonneg_left (hmin hV) (by positivity)

/-- A function bounded above by a constant minus a positive definite form attains its maximum. -/
theorem exists_max_of_quadratic {A : Matrix (Fin n) (Fin n) ℝ} (hA : A.PosDef) {f : (Fin n → ℝ) → ℝ}
    (hf : Continuous f) {c : ℝ} (hb : ∀ F, f F ≤ c - 1 / 2 * (F ⬝ᵥ (A *ᵥ F))) :
    ∃ F, ∀ G, f G ≤ f F := by
  obtain ⟨k, hk, hlow⟩ := posDef_lower hA
  have ht : Filter.Tendsto f (Filter.cocompact _) Filter.atBot := by
    have h1 : Filter.Tendsto (fun F : Fin n → ℝ => ‖F‖) (Filter.cocompact _) Filter.atTop :=
      tendsto_norm_cocompact_atTop
    have h2 : Filter.Tendsto (fun F : Fin n → ℝ => c - 1 / 2 * (k * ‖F‖ ^ 2)) (Filter.cocompact _)
        Filter.atBot := by
      have := ((Filter.tendsto_pow_atTop (two_ne_zero)).comp h1).const_mul_atTop (show 0 < 1 / 2 * k by positivity)
      have h3 := Filter.tendsto_atBot_add_const_left _ c (Filter.tendsto_neg_atTop_atBot.comp this)
      refine h3.congr fun F => ?_
      simp only [Function.comp]
      ring
    refine Filter.tendsto_atBot_mono (fun F => ?_) h2
    have := hb F
    have := hlow F
    linarith
  exact hf.exists_forall_ge ht

end gradients

end Lop
