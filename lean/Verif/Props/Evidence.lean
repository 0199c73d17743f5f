import Verif.Model.Evidence
import Verif.Spec.Evidence
import Verif.Spec.Hyper
import Verif.Proofs.MatrixCalc
import Verif.Proofs.Laplace
import Verif.Props.Laplace
import Verif.Props.PrefProbit
import Verif.Props.AbsProbit

/-! # C66 the hyper-parameter likelihood and its gradient -/

namespace Lop.Props

open Lop Lop.Spec Matrix Finset

variable {n : Nat}

section C66

theorem gpDerivatives_pairs_eq (P : ProbitSet) (y : List (IPair n)) (F : Fin n → ℝ) :
    gpDerivatives P ⟨some y, none, none⟩ F =
      .ok (some (prefW P.sigma y F, prefDerv P.sigma y F, prefLogLik P.sigma y F)) := by
  simp [gpDerivatives, ordPart, pairPart, absPart, prefDerivatives, Except.map]

theorem one_add_mul_det {K W : Matrix (Fin n) (Fin n) ℝ} (hK : K.PosDef) (hW : W.PosSemidef) :
    (1 + K * W).det = K.det * (K⁻¹ + W).det ∧ 0 < (1 + K * W).det ∧ (K⁻¹ + W).PosDef := by
  have hu : IsUnit K.det := hK.det_pos.ne'.isUnit
  have hp : (K⁻¹ + W).PosDef := hK.inv.add_posSemidef hW
  have h : 1 + K * W = K * (K⁻¹ + W) := by rw [Matrix.mul_add, Matrix.mul_nonsing_inv _ hu]
  refine ⟨by rw [h, det_mul], ?_, hp⟩
  rw [h, det_mul]
  exact mul_pos hK.det_pos hp.det_pos

/-- C66: at a posterior mode, with a positive semidefinite `W`, `likli_f_hyper` returns the logarithm of the marginal
likelihood of the quadratic approximation of the log likelihood (the Laplace approximation of the evidence). -/
theorem C66_evidence (P : ProbitSet) (y : TrainLabels n) (K : Matrix (Fin n) (Fin n) ℝ) (F : Fin n → ℝ) (r : Derivs n)
    (hr : gpDerivatives P y F = .ok (some r)) (hK : K.PosDef) (hW : r.1.PosSemidef) (hm : r.2.1 = K⁻¹ *ᵥ F) :
    ∃ v, likliHyper P y K F = .ok (some v) ∧ Real.exp v = marginalLik K (quadLik F r.2.2 r.2.1 r.1) := by
  obtain ⟨hd, hpos, hpd⟩ := one_add_mul_det hK hW
  refine ⟨r.2.2 - 1 / 2 * (F ⬝ᵥ (K⁻¹ *ᵥ F)) - 1 / 2 * Real.log (1 + K * r.1).det, ?_, ?_⟩
  · simp [likliHyper, hr, Except.bind, hK, hyperValue, hpos]
  · have hint : ∀ f : Fin n → ℝ, quadLik F r.2.2 r.2.1 r.1 f * normalDensity K f =
        (Real.exp (r.2.2 - 1 / 2 * (F ⬝ᵥ (K⁻¹ *ᵥ F))) / Real.sqrt ((2 * Real.pi) ^ n * K.det)) *
          Real.exp (-((f - F) ⬝ᵥ ((K⁻¹ + r.1) *ᵥ (f - F))) / 2) := by
      intro f
      rw [quadLik, normalDensity, mul_div_assoc', ← Real.exp_add, div_mul_eq_mul_div (Real.exp _), ← Real.exp_add]
      congr 2
      have hs : f = F + (f - F) := by abel
      generalize f - F = d at hs
      subst hs
      have hsym : F ⬝ᵥ (K⁻¹ *ᵥ d) = d ⬝ᵥ (K⁻¹ *ᵥ F) := by
        rw [dotProduct_mulVec, ← mulVec_transpose, inv_symm hK, dotProduct_comm]
      rw [hm, dotProduct_comm (K⁻¹ *ᵥ F) d, mulVec_add, add_mulVec, dotProduct_add, dotProduct_add, add_dotProduct,
        add_dotProduct, hsym]
      ring
    rw [marginalLik]
    simp only [hint]
    rw [MeasureTheory.integral_const_mul,
      MeasureTheory.integral_sub_right_eq_self (fun f : Fin n → ℝ => Real.exp (-(f ⬝ᵥ ((K⁻¹ + r.1) *ᵥ f)) / 2)) F,
      integral_gaussian_matrix _ hpd, Fintype.card_fin, Real.exp_sub _ (1 / 2 * Real.log _), hd]
    have h2 : Real.exp (1 / 2 * Real.log (K.det * (K⁻¹ + r.1).det)) = Real.sqrt (K.det * (K⁻¹ + r.1).det) := by
      rw [Real.sqrt_eq_rpow, Real.rpow_def_of_pos (mul_pos hK.det_pos hpd.det_pos), mul_comm]
    have hp : (0 : ℝ) < (2 * Real.pi) ^ n := by positivity
    have hs1 := Real.sqrt_pos.2 hp
    have hs2 := Real.sqrt_pos.2 hK.det_pos
    have hs3 := Real.sqrt_pos.2 hpd.det_pos
    rw [h2, Real.sqrt_div hp.le, Real.sqrt_mul hp.le, Real.sqrt_mul hK.det_pos.le]
    field_simp

theorem posDef_transpose {K : Matrix (Fin n) (Fin n) ℝ} (hK : K.PosDef) : Kᵀ = K := by
  rw [← conjTranspose_eq_transpose_of_trivial]; exact hK.isHermitian

/-- Derivative of the value of `likli_f_hyper` along any curve of matrices and vectors. -/
theorem deriv_hyperValue {K W : ℝ → Matrix (Fin n) (Fin n) ℝ} {F : ℝ → Fin n → ℝ} {ll : ℝ → ℝ}
    {dK dW : Matrix (Fin n) (Fin n) ℝ} {dF : Fin n → ℝ} {dll t : ℝ} (hK : MatDeriv K dK t) (hW : MatDeriv W dW t)
    (hF : ∀ i, HasDerivAt (fun s => F s i) (dF i) t) (hll : HasDerivAt ll dll t) (hp : (K t).PosDef)
    (hB : (1 + K t * W t).det ≠ 0) :
    HasDerivAt (fun s => ll s - 1 / 2 * (F s ⬝ᵥ ((K s)⁻¹ *ᵥ F s)) - 1 / 2 * Real.log (1 + K s * W s).det)
      (dll - dF ⬝ᵥ ((K t)⁻¹ *ᵥ F t) + 1 / 2 * (((K t)⁻¹ *ᵥ F t) ⬝ᵥ (dK *ᵥ ((K t)⁻¹ *ᵥ F t)))
        - 1 / 2 * ((1 + K t * W t)⁻¹ * (dK * W t + K t * dW)).trace) t := by
  have h1 := hasDerivAt_dotProduct hF (fun i => (hK.inv hp.det_pos.ne'.isUnit).mulVec hF i)
  have h2 := ((MatDeriv.const 1 t).add (hK.mul hW)).log_det (by simpa using hB)
  have h3 := (hll.sub (h1.const_mul (1 / 2))).sub (h2.const_mul (1 / 2))
  refine h3.congr_deriv ?_
  have hs : ∀ a b : Fin n → ℝ, a ⬝ᵥ ((K t)⁻¹ *ᵥ b) = ((K t)⁻¹ *ᵥ a) ⬝ᵥ b := by
    intro a b
    rw [dotProduct_mulVec, ← mulVec_transpose, inv_symm hp]
  rw [zero_add, dotProduct_add, Matrix.neg_mulVec, dotProduct_neg, ← mulVec_mulVec, ← mulVec_mulVec,
    hs (F t) (dK *ᵥ _), hs (F t) dF, dotProduct_comm _ dF]
  ring

/-- C66: the entry of the gradient for the noise level of the pair probit is the derivative of `likli_f_hyper` in
the noise level, the latent values kept fixed. -/
theorem C66_noise_level (P : ProbitSet) (fl : HyperFlags) (hfl : fl.prefOpt = true) (hs : 0 < P.sigma)
    (y : List (IPair n)) (K : Matrix (Fin n) (Fin n) ℝ) (dK : List (Matrix (Fin n) (Fin n) ℝ))
    (invert : Matrix (Fin n) (Fin n) ℝ → Option (Matrix (Fin n) (Fin n) ℝ)) (hi : InvertsInvertible invert)
    (F : Fin n → ℝ) (h : PairsInRange P.sigma y F) (hK : K.PosDef) :
    ∃ g L, gradLikliHyper P fl ⟨some y, none, none⟩ K dK invert F = .ok (some (g :: L)) ∧
      L.length = (if fl.onlyProbit then 0 else dK.length) ∧
      DerivOfResult (fun s => likliHyper { P with sigma := s } ⟨some y, none, none⟩ K F) g P.sigma := by
  have hW := (C37_W_psd P.sigma hs.ne' y F h).1
  obtain ⟨-, hpos, -⟩ := one_add_mul_det hK hW
  have hinv := hi _ hpos.ne'.isUnit
  refine ⟨probitGradEntry K (1 + K * prefW P.sigma y F)⁻¹ (prefGradHyper P.sigma y F) (prefWdHyper P.sigma y F),
    if fl.onlyProbit then [] else dK.map (kernelGradEntry K (1 + K * prefW P.sigma y F)⁻¹ (prefW P.sigma y F) F
      (prefDerv P.sigma y F) fun i => Matrix.of (prefWdF P.sigma y F i)), ?_, ?_, ?_⟩
  · unfold gradLikliHyper
    rw [gpDerivatives_pairs_eq]
    simp only [Except.bind, if_pos hK, gradLikliRest, hinv, Option.isSome, Bool.false_eq_true, if_false]
    cases dK with
    | nil => cases ho : fl.onlyProbit <;>
        simp [kernelGrad, Except.map, pairGrad, absGrad, hfl, appendGrad]
    | cons a l => cases ho : fl.onlyProbit <;>
        simp [kernelGrad, dWF, addTensor, Except.map, pairGrad, absGrad, hfl, appendGrad]
  · cases fl.onlyProbit <;> simp
  · have hd := C38_noise_level P.sigma hs y F h
    have hM : MatDeriv (fun s => prefW s y F) (prefWdHyper P.sigma y F) P.sigma := hd.2
    have hz : HasDerivAt (fun s => prefLogLik s y F) (prefGradHyper P.sigma y F) P.sigma := by
      refine hd.1.congr_of_eventuallyEq ?_
      filter_upwards [eventually_in_range_sigma hs.ne' y F (inRange_zk h)] with s hG
      simp only [prefLogLik, pairLogLik]
      exact sum_map_congr fun p hp => by rw [npClip_of_mem (hG p hp).1.le (hG p hp).2.le, zk_eq_pairZ]
    refine ⟨_, ?_, (deriv_hyperValue (MatDeriv.const K P.sigma) hM (fun i => hasDerivAt_const P.sigma (F i)) hz hK
      hpos.ne').congr_deriv ?_⟩
    · filter_upwards [eventually_in_range_sigma hs.ne' y F (inRange_zk h),
        eventually_gt_nhds hs] with s hG hs0
      have hG' : PairsInRange s y F := by
        intro p hp; rw [← zk_eq_pairZ]; exact hG p hp
      have hps := (one_add_mul_det hK (C37_W_psd s hs0.ne' y F hG').1).2.1
      simp [likliHyper, gpDerivatives_pairs_eq, Except.bind, hK, hyperValue, hps]
    · have e : (fun _ : Fin n => (0 : ℝ)) = 0 := rfl
      simp [probitGradEntry, e, Matrix.mul_assoc]

theorem inc_sum_eq_zero (p : IPair n) : ∑ a, inc p a = 0 := by
  simp [inc, Finset.sum_sub_distrib]

theorem prefWdF_sum (sigma : ℝ) (y : List (IPair n)) (F : Fin n → ℝ) :
    ∑ a, (Matrix.of (prefWdF sigma y F a) : Matrix (Fin n) (Fin n) ℝ) = 0 := by
  ext i j
  rw [Matrix.sum_apply]
  simp only [Matrix.of_apply, prefWdF, addUpWPartial_apply, List.map_map, Function.comp_def, Matrix.zero_apply]
  induction y with
  | nil => simp
  | cons p l ih =>
    simp only [List.map_cons, List.sum_cons, Finset.sum_add_distrib, ih, add_zero]
    rw [← Finset.mul_sum]
    have : ∑ a, inc p a * inc p i * inc p j = (∑ a, inc p a) * (inc p i * inc p j) := by
      rw [Finset.sum_mul]
      exact Finset.sum_congr rfl fun a _ => by ring
    rw [this, inc_sum_eq_zero]
    ring

/-- The code's value for the derivative in a kernel parameter, in the case of pairs only. -/
theorem kernelGradEntry_pairs (sigma : ℝ) (y : List (IPair n)) (K Binv W dK : Matrix (Fin n) (Fin n) ℝ)
    (F g : Fin n → ℝ) :
    kernelGradEntry K Binv W F g (fun i => Matrix.of (prefWdF sigma y F i)) dK =
      1 / 2 * ((K⁻¹ *ᵥ F) ⬝ᵥ (dK *ᵥ (K⁻¹ *ᵥ F))) - 1 / 2 * (Binv * (dK * W)).trace + ∑ i, ((Binv * dK) *ᵥ g) i := by
  have h : ∑ i, 1 / 2 * (Binv * K * Matrix.of (prefWdF sigma y F i)).trace = 0 := by
    rw [← Finset.mul_sum, ← Matrix.trace_sum, ← Matrix.mul_sum, prefWdF_sum]
    simp
  simp only [kernelGradEntry, Finset.sum_sub_distrib, h, sub_zero]
  rw [Matrix.mul_assoc Binv dK W]

/-- The list of gradient entries for pairs only, noise level first, then the kernel parameters. -/
theorem gradLikliHyper_pairs (P : ProbitSet) (fl : HyperFlags) (ho : fl.onlyProbit = false)
    (y : List (IPair n)) (K : Matrix (Fin n) (Fin n) ℝ) (dK : List (Matrix (Fin n) (Fin n) ℝ))
    (invert : Matrix (Fin n) (Fin n) ℝ → Option (Matrix (Fin n) (Fin n) ℝ)) (hi : InvertsInvertible invert)
    (F : Fin n → ℝ) (hs : P.sigma ≠ 0) (h : PairsInRange P.sigma y F) (hK : K.PosDef) :
    ∃ p, gradLikliHyper P fl ⟨some y, none, none⟩ K dK invert F = .ok (some (p ++
      dK.map (kernelGradEntry K (1 + K * prefW P.sigma y F)⁻¹ (prefW P.sigma y F) F
      (prefDerv P.sigma y F) fun i => Matrix.of (prefWdF P.sigma y F i)))) ∧
      p.length = if fl.prefOpt then 1 else 0 := by
  have hW := (C37_W_psd P.sigma hs y F h).1
  obtain ⟨-, hpos, -⟩ := one_add_mul_det hK hW
  have hinv := hi _ hpos.ne'.isUnit
  refine ⟨if fl.prefOpt then
    [probitGradEntry K (1 + K * prefW P.sigma y F)⁻¹ (prefGradHyper P.sigma y F) (prefWdHyper P.sigma y F)]
      else [], ?_, ?_⟩
  · unfold gradLikliHyper
    rw [gpDerivatives_pairs_eq]
    simp only [Except.bind, if_pos hK, gradLikliRest, hinv, Option.isSome, Bool.false_eq_true, if_false]
    cases dK with
    | nil => cases hp : fl.prefOpt <;>
        simp [kernelGrad, Except.map, pairGrad, absGrad, hp, ho, appendGrad]
    | cons a l => cases hp : fl.prefOpt <;>
        simp [kernelGrad, dWF, addTensor, Except.map, pairGrad, absGrad, hp, ho, appendGrad]
  · cases fl.prefOpt <;> simp

/-- C66 (partial): for pairs only the entry of a kernel parameter is the derivative of `likli_f_hyper` (latent
values kept fixed) plus the sum of the entries of `B⁻¹ dK ∇ log p(y|F)`. What is missing is a correct treatment of the
latent values: the surplus is neither zero (`C66_unlabelled_false`) nor the effect of the moving mode. -/
theorem C66_kernel_pairs_partial (P : ProbitSet) (fl : HyperFlags) (ho : fl.onlyProbit = false)
    (y : List (IPair n)) (K : ℝ → Matrix (Fin n) (Fin n) ℝ) (t : ℝ) (dKs : List (Matrix (Fin n) (Fin n) ℝ))
    (k : Nat) (dK : Matrix (Fin n) (Fin n) ℝ) (hk : dKs[k]? = some dK) (hd : MatDeriv K dK t)
    (hp : ∀ᶠ s in nhds t, (K s).PosDef)
    (invert : Matrix (Fin n) (Fin n) ℝ → Option (Matrix (Fin n) (Fin n) ℝ)) (hi : InvertsInvertible invert)
    (F : Fin n → ℝ) (hs : P.sigma ≠ 0) (h : PairsInRange P.sigma y F) :
    ∃ L e, gradLikliHyper P fl ⟨some y, none, none⟩ (K t) dKs invert F = .ok (some L) ∧
      L.length = (if fl.prefOpt then 1 else 0) + dKs.length ∧
      L[(if fl.prefOpt then 1 else 0) + k]? = some e ∧
      DerivOfResult (fun s => likliHyper P ⟨some y, none, none⟩ (K s) F)
        (e - ∑ i, (((1 + K t * prefW P.sigma y F)⁻¹ * dK) *ᵥ prefDerv P.sigma y F) i) t := by
  have hKt := hp.self_of_nhds
  have hW := (C37_W_psd P.sigma hs y F h).1
  obtain ⟨p, hg, hl⟩ := gradLikliHyper_pairs P fl ho y (K t) dKs invert hi F hs h hKt
  refine ⟨_, kernelGradEntry (K t) (1 + K t * prefW P.sigma y F)⁻¹ (prefW P.sigma y F) F
    (prefDerv P.sigma y F) (fun i => Matrix.of (prefWdF P.sigma y F i)) dK, hg, by simp [hl], ?_, ?_⟩
  · rw [← hl, List.getElem?_append_right (Nat.le_add_right _ _), Nat.add_sub_cancel_left, List.getElem?_map, hk]
    rfl
  · refine ⟨_, ?_, (deriv_hyperValue hd (MatDeriv.const (prefW P.sigma y F) t) (fun i => hasDerivAt_const t (F i))
      (hasDerivAt_const t (prefLogLik P.sigma y F)) hKt (one_add_mul_det hKt hW).2.1.ne').congr_deriv ?_⟩
    · filter_upwards [hp] with s hs'
      simp [likliHyper, gpDerivatives_pairs_eq, Except.bind, hs', hyperValue, (one_add_mul_det hs' hW).2.1]
    · rw [kernelGradEntry_pairs]
      have e : (fun _ : Fin n => (0 : ℝ)) = 0 := rfl
      simp [e]

/-- C66: along a path of posterior modes the hyper-parameter likelihood changes, besides the part with the latent
values fixed, by minus half the traces of `B⁻¹ K ∂W/∂F_a` *weighted with* the velocities `(B⁻¹ dK ∇ log p)_a` of the mode.
The code adds the two vectors up instead (`PreferenceGP.py:559`). -/
theorem C66_moving_mode_partial (P : ProbitSet) (fl : HyperFlags) (ho : fl.onlyProbit = false)
    (y : List (IPair n)) (K : ℝ → Matrix (Fin n) (Fin n) ℝ) (t : ℝ) (dKs : List (Matrix (Fin n) (Fin n) ℝ))
    (k : Nat) (dK : Matrix (Fin n) (Fin n) ℝ) (hk : dKs[k]? = some dK) (hd : MatDeriv K dK t)
    (hp : ∀ᶠ s in nhds t, (K s).PosDef)
    (invert : Matrix (Fin n) (Fin n) ℝ → Option (Matrix (Fin n) (Fin n) ℝ)) (hi : InvertsInvertible invert)
    (F : ℝ → Fin n → ℝ) (dF : Fin n → ℝ) (hF : ∀ i, HasDerivAt (fun s => F s i) (dF i) t)
    (hm : ∀ᶠ s in nhds t, prefDerv P.sigma y (F s) = (K s)⁻¹ *ᵥ F s)
    (D : Fin n → Matrix (Fin n) (Fin n) ℝ)
    (hD : ∀ i j, IsGradientAt (fun F => prefW P.sigma y F i j) (fun a => D a i j) (F t))
    (hs : P.sigma ≠ 0) (h : PairsInRange P.sigma y (F t)) :
    ∃ L e, gradLikliHyper P fl ⟨some y, none, none⟩ (K t) dKs invert (F t) = .ok (some L) ∧
      L[(if fl.prefOpt then 1 else 0) + k]? = some e ∧
      dF = ((1 + K t * prefW P.sigma y (F t))⁻¹ * dK) *ᵥ prefDerv P.sigma y (F t) ∧
      DerivOfResult (fun s => likliHyper P ⟨some y, none, none⟩ (K s) (F s))
        (e - ∑ a, dF a -
          ∑ a, dF a * (1 / 2 * ((1 + K t * prefW P.sigma y (F t))⁻¹ * K t * D a).trace)) t := by
  have hKt := hp.self_of_nhds
  have hW := (C37_W_psd P.sigma hs y (F t) h).1
  have hdet := (one_add_mul_det hKt hW).2.1
  have hFc : HasDerivAt F dF t := hasDerivAt_pi.2 hF
  have chain : ∀ {f : (Fin n → ℝ) → ℝ} {g : Fin n → ℝ}, IsGradientAt f g (F t) →
      HasDerivAt (fun s => f (F s)) (∑ a, g a * dF a) t := by
    intro f g hg
    have := HasFDerivAt.comp_hasDerivAt (f := F) t hg hFc
    refine this.congr_deriv ?_
    simp
  have hgW : MatDeriv (fun s => prefW P.sigma y (F s)) (∑ a, dF a • D a) t := by
    intro i j
    refine (chain (hD i j)).congr_deriv ?_
    rw [Matrix.sum_apply]
    exact Finset.sum_congr rfl fun a _ => by simp [mul_comm]
  have hgl : HasDerivAt (fun s => prefLogLik P.sigma y (F s)) (∑ a, prefDerv P.sigma y (F t) a * dF a) t :=
    chain (grad_logLik P.sigma y (F t) (inRange_zk h))
  have hvel : dF = ((1 + K t * prefW P.sigma y (F t))⁻¹ * dK) *ᵥ prefDerv P.sigma y (F t) := by
    have hg1 : ∀ i, HasDerivAt (fun s => prefDerv P.sigma y (F s) i)
        ((-(prefW P.sigma y (F t) *ᵥ dF)) i) t := by
      intro i
      refine (chain (grad_derv P.sigma y (F t) (inRange_zk h) i)).congr_deriv ?_
      simp [Matrix.mulVec, dotProduct, Finset.sum_neg_distrib]
    have hg2 := fun i => hd.mulVec hg1 i
    have heq : ∀ᶠ s in nhds t, F s = K s *ᵥ prefDerv P.sigma y (F s) := by
      filter_upwards [hm, hp] with s h1 h2
      rw [h1, mulVec_mulVec, Matrix.mul_nonsing_inv _ h2.det_pos.ne'.isUnit, one_mulVec]
    have hfe : dF = dK *ᵥ prefDerv P.sigma y (F t) + K t *ᵥ (-(prefW P.sigma y (F t) *ᵥ dF)) := by
      funext i
      refine (hF i).unique ((hg2 i).congr_of_eventuallyEq ?_)
      filter_upwards [heq] with s hs'
      exact congrFun hs' i
    have : (1 + K t * prefW P.sigma y (F t)) *ᵥ dF = dK *ᵥ prefDerv P.sigma y (F t) := by
      rw [add_mulVec, one_mulVec, ← mulVec_mulVec]
      nth_rewrite 1 [hfe]
      rw [mulVec_neg]
      abel
    rw [← mulVec_mulVec, ← this, mulVec_mulVec, Matrix.nonsing_inv_mul _ hdet.ne'.isUnit, one_mulVec]
  obtain ⟨p, hg, hl⟩ := gradLikliHyper_pairs P fl ho y (K t) dKs invert hi (F t) hs h hKt
  refine ⟨_, kernelGradEntry (K t) (1 + K t * prefW P.sigma y (F t))⁻¹ (prefW P.sigma y (F t)) (F t)
    (prefDerv P.sigma y (F t)) (fun i => Matrix.of (prefWdF P.sigma y (F t) i)) dK, hg, ?_, hvel, ?_⟩
  · rw [← hl, List.getElem?_append_right (Nat.le_add_right _ _), Nat.add_sub_cancel_left, List.getElem?_map, hk]
    rfl
  · refine ⟨_, ?_, (deriv_hyperValue hd hgW hF hgl hKt hdet.ne').congr_deriv ?_⟩
    · have hr : ∀ᶠ s in nhds t, PairsInRange P.sigma y (F s) := by
        have := hFc.continuousAt.eventually (eventually_in_range P.sigma y (F t) (inRange_zk h))
        filter_upwards [this] with s hG p hp'
        rw [← zk_eq_pairZ]; exact hG p hp'
      filter_upwards [hp, hr] with s hs' hr'
      have hWs := (C37_W_psd P.sigma hs y (F s) hr').1
      simp [likliHyper, gpDerivatives_pairs_eq, Except.bind, hs', hyperValue, (one_add_mul_det hs' hWs).2.1]
    · rw [kernelGradEntry_pairs, ← hvel, ← hm.self_of_nhds, Matrix.mul_add, Matrix.trace_add, ← Matrix.mul_assoc _ (K t),
        Matrix.mul_sum, Matrix.trace_sum]
      have e1 : ∑ a, prefDerv P.sigma y (F t) a * dF a = dF ⬝ᵥ prefDerv P.sigma y (F t) := by
        rw [dotProduct_comm]; rfl
      have e2 : ∑ a, ((1 + K t * prefW P.sigma y (F t))⁻¹ * K t * dF a • D a).trace =
          2 * ∑ a, dF a * (1 / 2 * ((1 + K t * prefW P.sigma y (F t))⁻¹ * K t * D a).trace) := by
        rw [Finset.mul_sum]
        refine Finset.sum_congr rfl fun a _ => ?_
        rw [Matrix.mul_smul, Matrix.trace_smul, smul_eq_mul]
        ring
      rw [e1, e2]
      ring

/-- The correlation of point 0 with point 2 is the parameter. -/
def corrK (s : ℝ) : Matrix (Fin 3) (Fin 3) ℝ := !![1, 0, s; 0, 1, 0; s, 0, 1]

theorem corrK_posDef {s : ℝ} (hs : |s| < 1) : (corrK s).PosDef := by
  refine Matrix.PosDef.of_dotProduct_mulVec_pos ?_ fun x hx => ?_
  · ext i j
    fin_cases i <;> fin_cases j <;> simp [corrK]
  · have h2 : s ^ 2 < 1 := by rw [← sq_abs]; nlinarith [abs_nonneg s]
    have hq : star x ⬝ᵥ (corrK s *ᵥ x) = (x 0 + s * x 2) ^ 2 + x 1 ^ 2 + (1 - s ^ 2) * x 2 ^ 2 := by
      simp [corrK, dotProduct, Matrix.mulVec, Fin.sum_univ_three]
      ring
    rw [hq]
    by_contra hn
    push Not at hn
    have h3 : 0 ≤ (1 - s ^ 2) * x 2 ^ 2 := mul_nonneg (by linarith) (sq_nonneg _)
    have e1 : x 1 = 0 := by nlinarith [sq_nonneg (x 0 + s * x 2), sq_nonneg (x 1)]
    have e2 : (1 - s ^ 2) * x 2 ^ 2 = 0 := by nlinarith [sq_nonneg (x 0 + s * x 2), sq_nonneg (x 1)]
    have e3 : x 2 = 0 := by
      rcases mul_eq_zero.1 e2 with h | h
      · linarith
      · exact pow_eq_zero_iff (two_ne_zero) |>.1 h
    have e4 : x 0 = 0 := by
      rw [e1, e3] at hn
      nlinarith [sq_nonneg (x 0)]
    exact hx (by funext i; fin_cases i <;> simp [e1, e3, e4])

/-- C66 refuted: point 1 was preferred to point 0, and nothing is known about point 2. The latent values `F s`
are the posterior mode whatever the correlation `s` of points 0 and 2 is, and the hyper-parameter likelihood does not
depend on `s`; the code returns a non-zero derivative in `s`. -/
theorem C66_unlabelled_false (o : OrdHyper ℝ) (a b c d : ℝ) :
    ∃ (sigma : ℝ) (F : ℝ → Fin 3 → ℝ) (v e : ℝ), 0 < sigma ∧
      (∀ s, |s| < 1 → (corrK s).PosDef ∧
        prefDerv sigma [⟨1, 0, 1⟩] (F s) = (corrK s)⁻¹ *ᵥ F s ∧ PairsInRange sigma [⟨1, 0, 1⟩] (F s) ∧
        likliHyper ⟨sigma, o, a, b, c, d⟩ ⟨some [⟨1, 0, 1⟩], none, none⟩ (corrK s) (F s) = .ok (some v)) ∧
      MatDeriv corrK !![0, 0, 1; 0, 0, 0; 1, 0, 0] 0 ∧
      (∀ invert, InvertsInvertible invert →
        gradLikliHyper ⟨sigma, o, a, b, c, d⟩ ⟨false, true, true, false⟩ ⟨some [⟨1, 0, 1⟩], none, none⟩ (corrK 0)
          [!![0, 0, 1; 0, 0, 0; 1, 0, 0]] invert (F 0) = .ok (some [e])) ∧
      e ≠ 0 := by
  set sigma : ℝ := Real.sqrt (mratio 1) with hsig
  have hs : 0 < sigma := Real.sqrt_pos.2 (mratio_pos 1)
  have hsq : sigma * sigma = mratio 1 := Real.mul_self_sqrt (mratio_pos 1).le
  set g : ℝ := isqrt2sig sigma * mratio 1 with hg
  have h2 : Real.sqrt 2 * Real.sqrt 2 = 2 := Real.mul_self_sqrt (by norm_num)
  have hr2 : 0 < Real.sqrt 2 := by positivity
  have hgpos : 0 < g := mul_pos (by rw [isqrt2sig]; positivity) (mratio_pos 1)
  have hz1 : isqrt2sig sigma * (2 * g) = 1 := by
    rw [hg, isqrt2sig, ← hsq]
    field_simp
    nlinarith
  let F : ℝ → Fin 3 → ℝ := fun s => ![-g, g, -(s * g)]
  have hzk : ∀ s, zk sigma (F s) ⟨1, 0, 1⟩ = 1 := by
    intro s
    simp only [zk, F, Matrix.cons_val_one, Matrix.cons_val_zero, Int.cast_one, mul_one]
    rw [← hz1]; ring
  have hr : ∀ s, PairsInRange sigma [⟨1, 0, 1⟩] (F s) := by
    intro s p hp
    rw [List.mem_singleton] at hp
    subst hp
    rw [← zk_eq_pairZ, hzk]
    norm_num
  have hm1 : pdfCdfRatio 1 = mratio 1 := pdfCdfRatio_of_mem (by norm_num) (by norm_num)
  have hder : ∀ s, prefDerv sigma [⟨1, 0, 1⟩] (F s) = ![-g, g, 0] := by
    intro s
    funext i
    rw [prefDerv_apply]
    fin_cases i <;> simp [inc, hzk, hm1, hg, mul_comm]
  set w : ℝ := isqrt2sig sigma ^ 2 * mcurv 1 with hw
  have hwpos : 0 < w := mul_pos (pow_pos (by rw [isqrt2sig]; positivity) _) (mcurv_pos 1)
  have hWv : ∀ s, prefW sigma [⟨1, 0, 1⟩] (F s) = !![w, -w, 0; -w, w, 0; 0, 0, 0] := by
    intro s
    ext i j
    rw [prefW_apply]
    fin_cases i <;> fin_cases j <;>
      simp [inc, hzk, hm1, hw, mcurv, pdfCdfRatio2_of_mem (x := 1) (by norm_num) (by norm_num)]
  have hKg : ∀ s, corrK s *ᵥ ![-g, g, 0] = F s := by
    intro s
    funext i
    fin_cases i <;> simp [corrK, Matrix.mulVec, dotProduct, Fin.sum_univ_three, F]
  have hmode : ∀ s, |s| < 1 → prefDerv sigma [⟨1, 0, 1⟩] (F s) = (corrK s)⁻¹ *ᵥ F s := by
    intro s h1
    rw [hder, ← hKg s, mulVec_mulVec, Matrix.nonsing_inv_mul _ (corrK_posDef h1).det_pos.ne'.isUnit, one_mulVec]
  have hll : ∀ s, prefLogLik sigma [⟨1, 0, 1⟩] (F s) = prefLogLik sigma [⟨1, 0, 1⟩] (F 0) := by
    intro s
    simp [prefLogLik, hzk]
  have hdet : ∀ s, (1 + corrK s * prefW sigma [⟨1, 0, 1⟩] (F s)).det = 1 + 2 * w := by
    intro s
    rw [hWv, Matrix.det_fin_three]
    simp [corrK, Matrix.mul_apply, Fin.sum_univ_three]
    ring
  refine ⟨sigma, F, prefLogLik sigma [⟨1, 0, 1⟩] (F 0) - 1 / 2 * (2 * g ^ 2) - 1 / 2 * Real.log (1 + 2 * w), -g, hs,
    fun s h1 => ⟨corrK_posDef h1, hmode s h1, hr s, ?_⟩, ?_, fun invert hi => ?_, by linarith⟩
  · have hq : F s ⬝ᵥ ((corrK s)⁻¹ *ᵥ F s) = 2 * g ^ 2 := by
      rw [← hmode s h1, hder]
      simp [F, dotProduct, Fin.sum_univ_three]
      ring
    have hp2 : 0 < 1 + 2 * w := by linarith
    simp only [likliHyper, gpDerivatives_pairs_eq, Except.bind, if_pos (corrK_posDef h1), hyperValue, Option.bind_some,
      hdet, if_pos hp2, hq, hll s]
  · intro i j
    fin_cases i <;> fin_cases j <;> simp [corrK, hasDerivAt_const, hasDerivAt_id']
  · obtain ⟨p, hgr, hl⟩ := gradLikliHyper_pairs (n := 3) ⟨sigma, o, a, b, c, d⟩ ⟨false, true, true, false⟩ rfl
      [⟨1, 0, 1⟩] (corrK 0) [!![0, 0, 1; 0, 0, 0; 1, 0, 0]] invert hi (F 0) hs.ne' (hr 0) (corrK_posDef (by simp))
    have hp0 : p = [] := by simpa using hl
    subst hp0
    rw [hgr]
    simp only [List.nil_append, List.map_cons, List.map_nil]
    rw [kernelGradEntry_pairs, ← hmode 0 (by simp), hder, hWv]
    have hBinv : (1 + corrK 0 * !![w, -w, 0; -w, w, 0; 0, 0, 0])⁻¹ =
        !![(1 + w) / (1 + 2 * w), w / (1 + 2 * w), 0; w / (1 + 2 * w), (1 + w) / (1 + 2 * w), 0; 0, 0, 1] := by
      refine Matrix.inv_eq_right_inv ?_
      have hp2 : 1 + 2 * w ≠ 0 := by linarith
      ext i j
      fin_cases i <;> fin_cases j <;>
        simp [corrK, Matrix.mul_apply, Fin.sum_univ_three] <;> field_simp <;> ring
    rw [hBinv]
    congr 3
    simp [Matrix.mulVec, dotProduct, Fin.sum_univ_three, Matrix.trace, Matrix.mul_apply]

theorem gpDerivatives_ratings_eq (P : ProbitSet) (y : List (ℝ × Fin n)) (F : Fin n → ℝ) :
    gpDerivatives P ⟨none, none, some y⟩ F = .ok (some
      (Matrix.of (absDerivatives P.absSigma P.absV P.absEps y F).1, (absDerivatives P.absSigma P.absV P.absEps y F).2.1,
        (absDerivatives P.absSigma P.absV P.absEps y F).2.2)) := by
  simp [gpDerivatives, ordPart, pairPart, absPart, Except.map]

/-- C66: with ratings only and both parameters tuned, the entry for the noise level of the ratings is the derivative
of `likli_f_hyper`, the latent values kept fixed. -/
theorem C66_rating_noise (P : ProbitSet) (fl : HyperFlags) (hfl : fl.absOpt = true) (hvo : fl.absVOnly = false)
    (hs : 0 < P.absSigma) (hv : 0 < P.absV) (y : List (ℝ × Fin n)) (hy : ∀ p ∈ y, 0 < p.1 ∧ p.1 < 1)
    (K : Matrix (Fin n) (Fin n) ℝ) (dK : List (Matrix (Fin n) (Fin n) ℝ))
    (invert : Matrix (Fin n) (Fin n) ℝ → Option (Matrix (Fin n) (Fin n) ℝ)) (hi : InvertsInvertible invert)
    (F : Fin n → ℝ) (h : RatingsInRange P.absSigma P.absEps y F) (hK : K.PosDef)
    (hB : 0 < (1 + K * Matrix.of (absDerivatives P.absSigma P.absV P.absEps y F).1).det) :
    ∃ g g' L, gradLikliHyper P fl ⟨none, none, some y⟩ K dK invert F = .ok (some (g :: g' :: L)) ∧
      L.length = (if fl.onlyProbit then 0 else dK.length) ∧
      DerivOfResult (fun s => likliHyper { P with absSigma := s } ⟨none, none, some y⟩ K F) g P.absSigma := by
  obtain ⟨ds, dv, hg, -, hds, -⟩ := C64_grad_hyper P.absSigma P.absV P.absEps hs hv y hy F h
  obtain ⟨D, E, hD, hDd⟩ := C64_W_dSigma P.absSigma P.absV P.absEps hs hv y F h
  have hinv := hi _ hB.ne'.isUnit
  set W := Matrix.of (absDerivatives P.absSigma P.absV P.absEps y F).1 with hW
  refine ⟨probitGradEntry K (1 + K * W)⁻¹ ds (Matrix.of D), probitGradEntry K (1 + K * W)⁻¹ dv (Matrix.of E),
    if fl.onlyProbit then [] else dK.map (kernelGradEntry K (1 + K * W)⁻¹ W F
      (absDerivatives P.absSigma P.absV P.absEps y F).2.1
        fun i => Matrix.of (absWdF P.absSigma P.absV P.absEps y F i)), ?_, ?_, ?_⟩
  · unfold gradLikliHyper
    rw [gpDerivatives_ratings_eq]
    simp only [Except.bind, if_pos hK, gradLikliRest, ← hW, hinv, Option.isSome, Bool.false_eq_true, if_false]
    cases dK with
    | nil => cases ho : fl.onlyProbit <;>
        simp [kernelGrad, Except.map, pairGrad, absGrad, hfl, hvo, hg, hD, appendGrad]
    | cons a l => cases ho : fl.onlyProbit <;>
        simp [kernelGrad, dWF, addTensor, Except.map, pairGrad, absGrad, hfl, hvo, hg, hD, appendGrad]
  · cases fl.onlyProbit <;> simp
  · have hM : MatDeriv (fun s => Matrix.of (absDerivatives s P.absV P.absEps y F).1) (Matrix.of D) P.absSigma := hDd
    have hev : ∀ᶠ s in nhds P.absSigma, ∀ p ∈ y, InR s P.absEps (F p.2) := by
      have hin := inR_of_range h
      clear hDd hM hB hinv hW W hg hD hds h hy
      induction y with
      | nil => simp
      | cons p y ih =>
        filter_upwards [inR_eventually_sigma hs.ne' (hin p (by simp)), ih fun q hq => hin q (by simp [hq])]
          with s h1 h2 q hq
        rcases List.mem_cons.1 hq with rfl | hq
        · exact h1
        · exact h2 q hq
    have hz : HasDerivAt (fun s => (absDerivatives s P.absV P.absEps y F).2.2) ds P.absSigma := by
      refine hds.congr_of_eventuallyEq ?_
      filter_upwards [hev] with s hG
      rw [betaLogLik_eq hv hy F]
      exact sum_map_congr fun p hp => absPy_of_inR hv (hy p hp).1 (hy p hp).2 (hG p hp)
    have hdc : ∀ᶠ s in nhds P.absSigma, 0 < (1 + K * Matrix.of (absDerivatives s P.absV P.absEps y F).1).det := by
      have := (((MatDeriv.const 1 P.absSigma).add ((MatDeriv.const K P.absSigma).mul hM)).det).continuousAt
      exact this.eventually (lt_mem_nhds hB)
    refine ⟨_, ?_, (deriv_hyperValue (MatDeriv.const K P.absSigma) hM (fun i => hasDerivAt_const P.absSigma (F i)) hz hK
      hB.ne').congr_deriv ?_⟩
    · filter_upwards [hdc] with s hps
      simp [likliHyper, gpDerivatives_ratings_eq, Except.bind, hK, hyperValue, hps]
    · have e : (fun _ : Fin n => (0 : ℝ)) = 0 := rfl
      simp [probitGradEntry, e, Matrix.mul_assoc, hW]

theorem one_posDef_one : (1 : Matrix (Fin 1) (Fin 1) ℝ).PosDef := Matrix.PosDef.one

/-- Curvature of one rating at latent value 0. -/
theorem absDerivatives_zero (sigma v eps : ℝ) (he : eps < 1 / 2) (hs : 0 < sigma) (hv : 0 < v) (y : ℝ) :
    ∃ w, 0 < w ∧ (Matrix.of (absDerivatives sigma v eps [(y, (0 : Fin 1))] fun _ => 0).1 : Matrix (Fin 1) (Fin 1) ℝ) =
      Matrix.diagonal fun _ => w := by
  have hin := inR_of_range (inRange_zero sigma eps he [(y, (0 : Fin 1))]) (y, 0) (by simp)
  refine ⟨v * isqrt2sig sigma * phi 0 * (v * isqrt2sig sigma * phi 0 * (trigamma (v / 2) + trigamma (v / 2))), ?_, ?_⟩
  · have h1 := trigamma_pos (show 0 < v / 2 by linarith)
    have h2 : 0 < isqrt2sig sigma := by rw [isqrt2sig]; positivity
    have h3 := phi_pos 0
    positivity
  · ext i j
    have hi := Subsingleton.elim i 0
    have hj := Subsingleton.elim j 0
    subst hi hj
    have hA : shA v 0 = v / 2 := by simp only [shA, Phi_zero]; ring
    have hB : shB v 0 = v / 2 := by simp only [shB, Phi_zero]; ring
    simp [absDerivatives, assignDiag, assignVec_single, absWdiag, alphaBeta_of_inR hin, hA, hB, stdNormPdf_eq]

theorem likliHyper_one_rating (P : ProbitSet) (he : P.absEps < 1 / 2) (hs : 0 < P.absSigma) (hv : 0 < P.absV) (y : ℝ) :
    likliHyper (n := 1) P ⟨none, none, some [(y, 0)]⟩ 1 (fun _ => 0) = .ok (some
      ((absDerivatives P.absSigma P.absV P.absEps [(y, (0 : Fin 1))] fun _ => 0).2.2 -
        1 / 2 * Real.log (1 + (absDerivatives P.absSigma P.absV P.absEps [(y, (0 : Fin 1))] fun _ => 0).1 0 0))) := by
  obtain ⟨w, hw, hWw⟩ := absDerivatives_zero P.absSigma P.absV P.absEps he hs hv y
  have hw0 : (absDerivatives P.absSigma P.absV P.absEps [(y, (0 : Fin 1))] fun _ => 0).1 0 0 = w := by
    have := congrFun (congrFun hWw 0) 0
    simpa using this
  have hdet : (1 + 1 * Matrix.diagonal fun _ => w : Matrix (Fin 1) (Fin 1) ℝ).det = 1 + w := by simp
  have e : (fun _ : Fin 1 => (0 : ℝ)) = 0 := rfl
  simp only [likliHyper, gpDerivatives_ratings_eq, Except.bind, if_pos one_posDef_one, hyperValue, hWw, Option.bind_some,
    hdet, if_pos (show 0 < 1 + w by linarith), hw0]
  simp [e]

/-- C66 refuted for ratings: one point, prior variance 1, latent value 0, a kernel parameter on which the covariance
does not depend. `likli_f_hyper` cannot depend on that parameter, but the code returns
a non-zero derivative for it, for every rating other than 1/2. -/
theorem C66_no_effect_false (P : ProbitSet) (he : P.absEps < 1 / 2) (hs : 0 < P.absSigma) (hv : 0 < P.absV) (y : ℝ)
    (hy : 0 < y ∧ y < 1) (hne : y ≠ 1 / 2)
    (invert : Matrix (Fin 1) (Fin 1) ℝ → Option (Matrix (Fin 1) (Fin 1) ℝ)) (hi : InvertsInvertible invert) :
    ∃ e, gradLikliHyper P ⟨true, false, true, false⟩ ⟨none, none, some [(y, 0)]⟩ 1 [0] invert (fun _ => 0) =
        .ok (some [e]) ∧ e ≠ 0 ∧
      MatDeriv (fun _ => (1 : Matrix (Fin 1) (Fin 1) ℝ)) 0 0 ∧
      DerivOfResult (fun _ => likliHyper (n := 1) P ⟨none, none, some [(y, 0)]⟩ 1 fun _ => 0) 0 0 := by
  obtain ⟨w, hw, hWw⟩ := absDerivatives_zero P.absSigma P.absV P.absEps he hs hv y
  have hin := inR_of_range (inRange_zero P.absSigma P.absEps he [(y, (0 : Fin 1))]) (y, 0) (by simp)
  have hdet : (1 + 1 * Matrix.diagonal fun _ => w : Matrix (Fin 1) (Fin 1) ℝ).det = 1 + w := by
    simp
  have hpos : 0 < 1 + w := by linarith
  have hinv := hi (1 + 1 * Matrix.diagonal fun _ => w) (by rw [hdet]; exact hpos.ne'.isUnit)
  have hBi : (1 + 1 * Matrix.diagonal fun _ => w : Matrix (Fin 1) (Fin 1) ℝ)⁻¹ = Matrix.diagonal fun _ => 1 / (1 + w) := by
    refine Matrix.inv_eq_right_inv ?_
    ext i j
    have hi := Subsingleton.elim i 0
    have hj := Subsingleton.elim j 0
    subst hi hj
    simp [Matrix.mul_apply, hpos.ne']
  have hT : Real.log y - Real.log (1 - y) ≠ 0 := by
    have h1y : 0 < 1 - y := by linarith [hy.2]
    intro h
    have := Real.log_injOn_pos (Set.mem_Ioi.2 hy.1) (Set.mem_Ioi.2 h1y) (by linarith)
    exact hne (by linarith)
  have hA : shA P.absV (0 * isqrt2sig P.absSigma) = P.absV / 2 := by simp only [shA, zero_mul, Phi_zero]; ring
  have hB : shB P.absV (0 * isqrt2sig P.absSigma) = P.absV / 2 := by simp only [shB, zero_mul, Phi_zero]; ring
  have hd : absWdF1 P.absSigma P.absV P.absEps y 0 =
      -(P.absV / (2 * Real.sqrt 2 * P.absSigma * P.absSigma * P.absSigma)) * phi 0 *
        (Real.log y - Real.log (1 - y)) := by
    rw [zero_mul] at hA hB
    simp [absWdF1, alphaBeta_of_inR hin, hA, hB, absTmp, stdNormPdf_eq]
  refine ⟨-(1 / 2 * (1 / (1 + w) * absWdF1 P.absSigma P.absV P.absEps y 0)), ?_, ?_, MatDeriv.const 1 0, ?_⟩
  · unfold gradLikliHyper
    rw [gpDerivatives_ratings_eq]
    simp only [Except.bind, if_pos one_posDef_one, gradLikliRest, hWw, hinv, hBi, Option.isSome, Bool.false_eq_true, if_false,
      kernelGrad, dWF, Option.map, addTensor, Except.map, pairGrad, absGrad, appendGrad, List.map_cons, List.map_nil]
    congr 3
    simp [kernelGradEntry, absWdF, assignVec_single, Matrix.trace, Matrix.mul_apply, Matrix.mulVec, dotProduct]
  · rw [hd]
    have hp := phi_pos 0
    have hc : P.absV / (2 * Real.sqrt 2 * P.absSigma * P.absSigma * P.absSigma) ≠ 0 := by positivity
    have h1 : 1 / (1 + w) ≠ 0 := by positivity
    exact neg_ne_zero.2 (mul_ne_zero (by norm_num) (mul_ne_zero h1 (mul_ne_zero
      (mul_ne_zero (neg_ne_zero.2 hc) hp.ne') hT)))
  · exact ⟨fun _ => _, Filter.Eventually.of_forall fun _ => likliHyper_one_rating P he hs hv y, hasDerivAt_const _ _⟩

/-- C66 refuted for the precision of the ratings: the entry for the precision is not the derivative of
`likli_f_hyper` (one rating, latent value 0, prior variance 1, every sufficiently small precision). -/
theorem C66_precision_false (P : ProbitSet) (he : P.absEps < 1 / 2) (hs : 0 < P.absSigma)
    (invert : Matrix (Fin 1) (Fin 1) ℝ → Option (Matrix (Fin 1) (Fin 1) ℝ)) (hi : InvertsInvertible invert) :
    ∃ v0 > 0, ∀ v, 0 < v → v < v0 → ∀ y : ℝ, 0 < y → y < 1 →
      ∃ g, gradLikliHyper { P with absV := v } ⟨true, true, true, true⟩ ⟨none, none, some [(y, 0)]⟩ 1 [] invert
          (fun _ => 0) = .ok (some [g]) ∧
        ¬ DerivOfResult (fun u => likliHyper (n := 1) { P with absV := u } ⟨none, none, some [(y, 0)]⟩ 1 fun _ => 0)
          g v := by
  obtain ⟨v0, hv0, hfalse⟩ := C64_W_dv_false (m := 1) P.absSigma P.absEps hs he
  refine ⟨v0, hv0, fun v hv hlt y hy0 hy1 => ?_⟩
  obtain ⟨D, hD, hnot⟩ := hfalse v hv hlt 0 y
  have hyl : ∀ p ∈ [(y, (0 : Fin 1))], 0 < p.1 ∧ p.1 < 1 := by
    intro p hp
    rw [List.mem_singleton] at hp
    subst hp
    exact ⟨hy0, hy1⟩
  have hr := inRange_zero P.absSigma P.absEps he [(y, (0 : Fin 1))]
  have hin := inR_of_range hr (y, 0) (by simp)
  obtain ⟨ds, dv, -, hg, -, hdv⟩ := C64_grad_hyper P.absSigma v P.absEps hs hv [(y, (0 : Fin 1))] hyl (fun _ => 0) hr
  obtain ⟨w, hw, hWw⟩ := absDerivatives_zero P.absSigma v P.absEps he hs hv y
  have hpos : 0 < 1 + w := by linarith
  have hdet : (1 + 1 * Matrix.diagonal fun _ => w : Matrix (Fin 1) (Fin 1) ℝ).det = 1 + w := by simp
  have hinv := hi (1 + 1 * Matrix.diagonal fun _ => w) (by rw [hdet]; exact hpos.ne'.isUnit)
  set B : Matrix (Fin 1) (Fin 1) ℝ := 1 + 1 * Matrix.diagonal fun _ => w with hBdef
  have hBi : B⁻¹ = Matrix.diagonal fun _ => 1 / (1 + w) := by
    refine Matrix.inv_eq_right_inv ?_
    ext i j
    have hi := Subsingleton.elim i 0
    have hj := Subsingleton.elim j 0
    subst hi hj
    simp [hBdef, Matrix.mul_apply, hpos.ne']
  refine ⟨probitGradEntry 1 B⁻¹ dv (Matrix.of D), ?_, ?_⟩
  · unfold gradLikliHyper
    rw [gpDerivatives_ratings_eq]
    simp only [Except.bind, if_pos one_posDef_one, gradLikliRest, hWw, ← hBdef, hinv, Option.isSome, Bool.false_eq_true, if_false,
      kernelGrad, Except.map, pairGrad, absGrad, appendGrad, hg, hD, List.zipWith, if_true]
  · rintro ⟨V, hV, hdV⟩
    have hfun : ∀ u, (absDerivatives P.absSigma u P.absEps [(y, (0 : Fin 1))] fun _ => 0).1 0 0 =
        shW y (isqrt2sig P.absSigma) u (0 * isqrt2sig P.absSigma) := by
      intro u
      simp only [absDerivatives, assignDiag, if_true, List.map_cons, List.map_nil, assignVec_single,
        absWdiag_of_inR hin, neg_neg]
    obtain ⟨d, hd⟩ : ∃ d, HasDerivAt (fun u => (absDerivatives P.absSigma u P.absEps [(y, (0 : Fin 1))] fun _ => 0).1 0 0)
        d v := by
      simp only [hfun]
      exact ⟨_, hasDerivAt_shW_v hv⟩
    have hz : HasDerivAt (fun u => (absDerivatives P.absSigma u P.absEps [(y, (0 : Fin 1))] fun _ => 0).2.2) dv v := by
      refine hdv.congr_of_eventuallyEq ?_
      filter_upwards [lt_mem_nhds hv] with u hu
      have := absPy_sum (sigma := P.absSigma) (eps := P.absEps) (F := fun _ : Fin 1 => (0 : ℝ)) hu hyl hr
      simpa only [absDerivatives] using this
    have hw0 : (absDerivatives P.absSigma v P.absEps [(y, (0 : Fin 1))] fun _ => 0).1 0 0 = w := by
      have := congrFun (congrFun hWw 0) 0
      simpa using this
    have htrue := hz.sub (((hd.const_add 1).log (by rw [hw0]; exact hpos.ne')).const_mul (1 / 2))
    have heq : V =ᶠ[nhds v] fun u => (absDerivatives P.absSigma u P.absEps [(y, (0 : Fin 1))] fun _ => 0).2.2 -
        1 / 2 * Real.log (1 + (absDerivatives P.absSigma u P.absEps [(y, (0 : Fin 1))] fun _ => 0).1 0 0) := by
      filter_upwards [hV, lt_mem_nhds hv] with u hu hu0
      have hl := likliHyper_one_rating { P with absV := u } he hs hu0 y
      rw [hl] at hu
      simpa using hu.symm
    have hu := (htrue.congr_of_eventuallyEq heq).unique hdV
    rw [hw0, hBi] at hu
    have htr : probitGradEntry 1 (Matrix.diagonal fun _ => 1 / (1 + w)) dv (Matrix.of D) =
        dv - 1 / 2 * (D 0 0 / (1 + w)) := by
      simp [probitGradEntry, Matrix.trace, div_eq_inv_mul]
    rw [htr] at hu
    have : d = D 0 0 := by
      field_simp at hu
      linarith
    rw [this] at hd
    exact hnot hd

/-- C66: what makes the two functions raise. A covariance matrix without Cholesky factor raises in both; ordinal labels
(the probit has no `calc_W_dF`) and a model without labels always raise in the gradient, `NotImplementedError` and `ValueError`
once the matrices could be inverted. -/
theorem C66_raises (P : ProbitSet) (fl : HyperFlags) (y : TrainLabels n) (K : Matrix (Fin n) (Fin n) ℝ)
    (dK : List (Matrix (Fin n) (Fin n) ℝ)) (invert : Matrix (Fin n) (Fin n) ℝ → Option (Matrix (Fin n) (Fin n) ℝ))
    (F : Fin n → ℝ) (r : Derivs n) (hr : gpDerivatives P y F = .ok (some r)) :
    (¬ K.PosDef → likliHyper P y K F = .error .valueError ∧
      gradLikliHyper P fl y K dK invert F = .error .valueError) ∧
    (y.ord ≠ none → ∀ L, gradLikliHyper P fl y K dK invert F ≠ .ok L) ∧
    (y.pairs = none → y.ord = none → y.abs = none → dK ≠ [] →
      ∀ L, gradLikliHyper P fl y K dK invert F ≠ .ok L) ∧
    (K.PosDef → invert (1 + K * r.1) = none → gradLikliHyper P fl y K dK invert F = .error .valueError) ∧
    (K.PosDef → ∀ B, invert (1 + K * r.1) = some B →
      (y.ord ≠ none → gradLikliHyper P fl y K dK invert F = .error .notImplemented) ∧
      (y.pairs = none → y.ord = none → y.abs = none → dK ≠ [] →
        gradLikliHyper P fl y K dK invert F = .error .valueError)) := by
  refine ⟨fun hK => ?_, fun ho L => ?_, fun h1 h2 h3 hd L => ?_, fun hK hi => ?_, fun hK B hB => ⟨fun ho => ?_, fun h1 h2 h3 hd => ?_⟩⟩
  · simp [likliHyper, gradLikliHyper, hr, Except.bind, hK]
  · obtain ⟨l, hl⟩ := Option.ne_none_iff_exists'.1 ho
    unfold gradLikliHyper
    rw [hr]
    simp only [Except.bind, gradLikliRest, hl, Option.isSome, if_true]
    by_cases hK : K.PosDef
    · rw [if_pos hK]; split <;> simp
    · rw [if_neg hK]; simp
  · obtain ⟨a, l, rfl⟩ := List.exists_cons_of_ne_nil hd
    unfold gradLikliHyper
    rw [hr]
    simp only [Except.bind, gradLikliRest, h1, h2, h3, dWF, addTensor, Option.map, kernelGrad, Except.map, Option.isSome]
    by_cases hK : K.PosDef
    · rw [if_pos hK]; split <;> simp
    · rw [if_neg hK]; simp
  · simp [gradLikliHyper, hr, Except.bind, hK, gradLikliRest, hi]
  · obtain ⟨l, hl⟩ := Option.ne_none_iff_exists'.1 ho
    simp [gradLikliHyper, hr, Except.bind, hK, gradLikliRest, hB, hl]
  · obtain ⟨a, l, rfl⟩ := List.exists_cons_of_ne_nil hd
    simp [gradLikliHyper, hr, Except.bind, hK, gradLikliRest, hB, h1, h2, h3, dWF, addTensor, kernelGrad, Except.map]

/-- C66: without ordinal data the gradient has one entry per hyper-parameter, in number as the hyper-parameter vector;
it is `None` exactly when that vector is empty and only the probits are tuned. -/
theorem C66_layout {Q : Type} (P : ProbitSet) (s : HyperState ℝ Q) (y : TrainLabels n) (hp : y.pairs.isSome = s.hasPref)
    (hoy : y.ord = none) (ho : s.hasOrd = false) (ha : y.abs.isSome = s.hasAbs) (hl : s.hasPref ∨ s.hasAbs)
    (K : Matrix (Fin n) (Fin n) ℝ) (hK : K.PosDef) (dK : List (Matrix (Fin n) (Fin n) ℝ))
    (hd : dK.length = ((leaves s.kern).map arity).sum)
    (invert : Matrix (Fin n) (Fin n) ℝ → Option (Matrix (Fin n) (Fin n) ℝ)) (F : Fin n → ℝ) (r : Derivs n)
    (hr : gpDerivatives P y F = .ok (some r)) (B : Matrix (Fin n) (Fin n) ℝ) (hi : invert (1 + K * r.1) = some B) :
    ∃ L, gradLikliHyper P ⟨s.pref.optimize, s.abs.optimize, s.abs.vOnly, s.onlyProbit⟩ y K dK invert F = .ok L ∧
      (L.getD []).length = (layout s).length ∧ (L = none ↔ s.onlyProbit = true ∧ layout s = []) := by
  have hz : ∀ (l : List (KLeaf ℝ Q)) (k : Nat), ((l.zipIdx k).flatMap fun (k, i) =>
      (List.range (arity k)).map fun j => (Slot.kern i j : Slot)).length = (l.map arity).sum := by
    intro l
    induction l with
    | nil => simp
    | cons a l ih => intro k; simp [List.zipIdx_cons, ih]
  have hz0 := hz (leaves s.kern) 0
  obtain ⟨yp, yo, ya⟩ := y
  simp only at hp hoy ha
  subst hoy
  unfold gradLikliHyper
  rw [hr]
  simp only [Except.bind, if_pos hK, gradLikliRest, hi, Option.isSome, Bool.false_eq_true, if_false]
  have hdl : ∃ dL, kernelGrad K B r.1 F r.2.1 (dWF P ⟨yp, none, ya⟩ F) dK = .ok dL ∧ dL.length = dK.length := by
    cases dK with
    | nil => exact ⟨[], rfl, rfl⟩
    | cons a l =>
      obtain ⟨W, hW⟩ : ∃ W, dWF P ⟨yp, none, ya⟩ F = some W := by
        cases yp <;> cases ya <;> simp_all [dWF, addTensor]
      refine ⟨(a :: l).map (kernelGradEntry K B r.1 F r.2.1 W), ?_, ?_⟩
      · rw [hW]; rfl
      · simp
  obtain ⟨dL, hdL, hlen⟩ := hdl
  rw [hdL]
  refine ⟨_, rfl, ?_⟩
  have hk : ((List.zipIdx (leaves s.kern)).flatMap fun (k, i) =>
      (List.range (arity k)).map fun j => (Slot.kern i j : Slot)).length = dL.length := by
    rw [hlen, hd]; exact hz0
  have habs : ∀ l : List (ℝ × Fin n), (List.zipWith (fun g dW => probitGradEntry K B g (Matrix.of dW))
      (absGradHyper s.abs.vOnly P.absSigma P.absV P.absEps l F)
      (absWdHyper s.abs.vOnly P.absSigma P.absV P.absEps l F)).length = if s.abs.vOnly then 1 else 2 := by
    intro l
    cases s.abs.vOnly <;> simp [absGradHyper, absWdHyper]
  simp only [layout, ho, Bool.false_eq_true, if_false, List.append_nil]
  generalize (List.zipIdx (leaves s.kern)).flatMap (fun (k, i) =>
      (List.range (arity k)).map fun j => (Slot.kern i j : Slot)) = S at hk ⊢
  clear hz hz0 hd hdL hlen hr hi hK ho
  rw [← hp, ← ha] at hl ⊢
  cases yp <;> cases ya <;> cases hpo : s.pref.optimize <;> cases hao : s.abs.optimize <;> cases hop : s.onlyProbit <;>
    cases hvo : s.abs.vOnly <;> rw [hvo] at habs <;>
    simp [pairGrad, absGrad, appendGrad, hk, habs] at hl ⊢
  all_goals omega

/-- The hypotheses of `C66_evidence`, `C66_noise_level` and `C66_moving_mode_partial` hold together in the case of
`C66_unlabelled_false`: a positive definite matrix, a mode of the posterior for every parameter value near 0, a positive
semidefinite curvature. -/
example (o : OrdHyper ℝ) : ∃ (P : ProbitSet) (F : ℝ → Fin 3 → ℝ) (r : Derivs 3), 0 < P.sigma ∧ (corrK 0).PosDef ∧
    (∀ᶠ s in nhds (0 : ℝ), (corrK s).PosDef) ∧
    gpDerivatives P ⟨some [⟨1, 0, 1⟩], none, none⟩ (F 0) = .ok (some r) ∧ r.1.PosSemidef ∧ r.2.1 = (corrK 0)⁻¹ *ᵥ F 0 ∧
    (∀ᶠ s in nhds (0 : ℝ), prefDerv P.sigma [⟨1, 0, 1⟩] (F s) = (corrK s)⁻¹ *ᵥ F s) ∧
    PairsInRange P.sigma [⟨1, 0, 1⟩] (F 0) := by
  obtain ⟨sigma, F, v, e, hs, h, -⟩ := C66_unlabelled_false o 1 1 1 1
  have hnear : ∀ᶠ s in nhds (0 : ℝ), |s| < 1 := by
    have : ContinuousAt (fun s : ℝ => |s|) 0 := continuous_abs.continuousAt
    exact this.eventually (gt_mem_nhds (by simp))
  have h0 := h 0 (by simp)
  refine ⟨⟨sigma, o, 1, 1, 1, 1⟩, F, _, hs, h0.1, ?_, gpDerivatives_pairs_eq _ _ _, ?_, h0.2.1, ?_, h0.2.2.1⟩
  · filter_upwards [hnear] with s hs' using (h s hs').1
  · exact (C37_W_psd sigma hs.ne' _ _ h0.2.2.1).1
  · filter_upwards [hnear] with s hs' using (h s hs').2.1

/-- Hypotheses of `C66_rating_noise`: one rating at latent value 0. -/
example : RatingsInRange 1 (1 / 1000) [((1 / 4 : ℝ), (0 : Fin 1))] (fun _ => 0) ∧
    0 < (1 + 1 * (Matrix.of (absDerivatives 1 5 (1 / 1000) [((1 / 4 : ℝ), (0 : Fin 1))] fun _ => 0).1 :
      Matrix (Fin 1) (Fin 1) ℝ)).det := by
  refine ⟨inRange_zero 1 _ (by norm_num) _, ?_⟩
  obtain ⟨w, hw, hWw⟩ := absDerivatives_zero 1 5 (1 / 1000) (by norm_num) one_pos (by norm_num) (1 / 4)
  rw [hWw]
  simp
  linarith

/-- Hypotheses of `C66_raises`: an ordinal rating, the derivatives being defined (`C73_ordinal_counterexample`), and a
model without labels. -/
example : (∃ (P : ProbitSet) (r : Derivs 1), gpDerivatives P ⟨none, some [(2, 0)], none⟩ (fun _ => 0) = .ok (some r)) ∧
    ∀ P : ProbitSet, gpDerivatives (n := 1) P ⟨none, none, none⟩ (fun _ => 0) = .ok (some (0, 0, 0)) := by
  obtain ⟨o, P, r, K, p, -, -, h, -⟩ := C73_ordinal_counterexample
  refine ⟨⟨P, r, h⟩, fun P => ?_⟩
  simp [gpDerivatives, ordPart, pairPart, absPart, Except.map]

/-- Hypotheses of `C66_layout`: pairs and a radial basis kernel with its two parameters tuned. -/
example (o : OrdHyper ℝ) (p : PrefHyper ℝ) (a : AbsHyper ℝ) : ∃ s : HyperState ℝ (Pt 1), s.hasPref = true ∧
    s.hasOrd = false ∧ s.hasAbs = false ∧ s.onlyProbit = false ∧ ((leaves s.kern).map arity).sum = 2 :=
  ⟨⟨p, o, a, true, false, false, .leaf (.rbf 1 1 0), false⟩, rfl, rfl, rfl, rfl, rfl⟩

end C66

end Lop.Props
