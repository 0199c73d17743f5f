import Verif.Props.Evidence

/-! # C66: the gradient of the hyper-parameter likelihood for models with pairs and ratings -/

namespace Lop.Props

open Lop Lop.Spec Matrix Finset

variable {n : Nat}

theorem gpDerivatives_both_eq (P : ProbitSet) (y : List (IPair n)) (q : List (ℝ × Fin n)) (F : Fin n → ℝ) :
    gpDerivatives P ⟨some y, none, some q⟩ F = .ok (some
      (prefW P.sigma y F + Matrix.of (absDerivatives P.absSigma P.absV P.absEps q F).1,
        prefDerv P.sigma y F + (absDerivatives P.absSigma P.absV P.absEps q F).2.1,
        prefLogLik P.sigma y F + (absDerivatives P.absSigma P.absV P.absEps q F).2.2)) := by
  simp [gpDerivatives, ordPart, pairPart, absPart, prefDerivatives, Except.map]

/-- C66 (partial): with pairs and ratings the entry of a kernel parameter is the derivative of `likli_f_hyper` (latent values kept fixed) plus the
sum of the entries of `B⁻¹ dK ∇ log p(y|F)` plus half the traces of `B⁻¹ K ∂W/∂F_a` of the ratings; those of the pairs cancel. What is missing is a
correct treatment of the latent values, as for pairs alone. -/
theorem C66_kernel_both_partial (P : ProbitSet) (fl : HyperFlags) (ho : fl.onlyProbit = false) (y : List (IPair n)) (q : List (ℝ × Fin n))
    (K : ℝ → Matrix (Fin n) (Fin n) ℝ) (t : ℝ) (dKs : List (Matrix (Fin n) (Fin n) ℝ)) (k : Nat) (dK : Matrix (Fin n) (Fin n) ℝ)
    (hk : dKs[k]? = some dK) (hd : MatDeriv K dK t) (hp : ∀ᶠ s in nhds t, (K s).PosDef)
    (invert : Matrix (Fin n) (Fin n) ℝ → Option (Matrix (Fin n) (Fin n) ℝ)) (hi : InvertsInvertible invert)
    (F : Fin n → ℝ) (hs : 0 < P.absSigma) (hv : 0 < P.absV) (hq : RatingsInRange P.absSigma P.absEps q F) (r : Derivs n)
    (hr : gpDerivatives P ⟨some y, none, some q⟩ F = .ok (some r)) (hB : 0 < (1 + K t * r.1).det) :
    ∃ (L p M : List ℝ) (e : ℝ) (D : Fin n → Matrix (Fin n) (Fin n) ℝ),
      gradLikliHyper P fl ⟨some y, none, some q⟩ (K t) dKs invert F = .ok (some L) ∧ L = p ++ M ∧ M.length = dKs.length ∧ M[k]? = some e ∧
      (∀ i j, IsGradientAt (fun F => (absDerivatives P.absSigma P.absV P.absEps q F).1 i j) (fun a => D a i j) F) ∧
      DerivOfResult (fun s => likliHyper P ⟨some y, none, some q⟩ (K s) F)
        (e - ∑ i, (((1 + K t * r.1)⁻¹ * dK) *ᵥ r.2.1) i - 1 / 2 * ∑ a, ((1 + K t * r.1)⁻¹ * K t * D a).trace) t := by
  have hKt := hp.self_of_nhds
  have hinv := hi _ hB.ne'.isUnit
  have hW : MatDeriv (fun s => 1 + K s * r.1) (0 + (dK * r.1 + K t * 0)) t := (MatDeriv.const 1 t).add (hd.mul (MatDeriv.const r.1 t))
  have hdc : ∀ᶠ s in nhds t, 0 < (1 + K s * r.1).det := hW.det.continuousAt.eventually (lt_mem_nhds hB)
  let dW : Fin n → Matrix (Fin n) (Fin n) ℝ := fun i =>
    Matrix.of (prefWdF P.sigma y F i) + Matrix.of (absWdF P.absSigma P.absV P.absEps q F i)
  let D : Fin n → Matrix (Fin n) (Fin n) ℝ := fun i => -Matrix.of (absWdF P.absSigma P.absV P.absEps q F i)
  let M := dKs.map (kernelGradEntry (K t) (1 + K t * r.1)⁻¹ r.1 F r.2.1 dW)
  let p := (appendGrad (pairGrad P fl (K t) (1 + K t * r.1)⁻¹ F (some y)) (absGrad P fl (K t) (1 + K t * r.1)⁻¹ F (some q))).getD []
  have hkg : kernelGrad (K t) (1 + K t * r.1)⁻¹ r.1 F r.2.1 (dWF P ⟨some y, none, some q⟩ F) dKs = .ok M := by
    cases dKs with
    | nil => rfl
    | cons a l => rfl
  refine ⟨p ++ M, p, M, kernelGradEntry (K t) (1 + K t * r.1)⁻¹ r.1 F r.2.1 dW dK, D, ?_, rfl, by simp [M], by simp [M, hk], ?_, ?_⟩
  · unfold gradLikliHyper
    rw [hr]
    simp only [Except.bind, if_pos hKt, gradLikliRest, hinv, Option.isSome, Bool.false_eq_true, if_false, hkg, Except.map, ho]
    have hap : ∀ g : Option (List ℝ), appendGrad g (some M) = some (g.getD [] ++ M) := by
      intro g; cases g <;> simp [appendGrad]
    rw [hap]
  · intro i j
    exact C64_W_dF_partial P.absSigma P.absV P.absEps hs hv q F hq i j
  · refine ⟨_, ?_, (deriv_hyperValue hd (MatDeriv.const r.1 t) (fun i => hasDerivAt_const t (F i))
      (hasDerivAt_const t r.2.2) hKt hB.ne').congr_deriv ?_⟩
    · filter_upwards [hp, hdc] with s h1 h2
      simp [likliHyper, hr, Except.bind, h1, hyperValue, h2]
    · have h1 : ∑ i, ((1 + K t * r.1)⁻¹ * K t * dW i).trace = - ∑ a, ((1 + K t * r.1)⁻¹ * K t * D a).trace := by
        have e1 : ∑ i, dW i = - ∑ a, D a := by
          simp only [dW, D, Finset.sum_add_distrib, prefWdF_sum, zero_add, Finset.sum_neg_distrib, neg_neg]
        rw [← Matrix.trace_sum, ← Matrix.mul_sum, e1, Matrix.mul_neg, Matrix.trace_neg, Matrix.mul_sum, Matrix.trace_sum]
      have e : (fun _ : Fin n => (0 : ℝ)) = 0 := rfl
      simp only [kernelGradEntry, Finset.sum_sub_distrib, ← Finset.mul_sum, h1, Matrix.mul_assoc _ dK, e]
      simp
      ring

/-- C66: with pairs and ratings the first entry of the gradient is the derivative in the noise level of the pairs, and, if both parameters of the rating
probit are tuned, the second entry is the derivative in the spread of the ratings; the latent values are kept fixed. -/
theorem C66_noise_both (P : ProbitSet) (fl : HyperFlags) (hfp : fl.prefOpt = true) (hfa : fl.absOpt = true) (hvo : fl.absVOnly = false)
    (hs : 0 < P.sigma) (has : 0 < P.absSigma) (hv : 0 < P.absV) (y : List (IPair n)) (q : List (ℝ × Fin n)) (hy : ∀ p ∈ q, 0 < p.1 ∧ p.1 < 1)
    (K : Matrix (Fin n) (Fin n) ℝ) (dK : List (Matrix (Fin n) (Fin n) ℝ))
    (invert : Matrix (Fin n) (Fin n) ℝ → Option (Matrix (Fin n) (Fin n) ℝ)) (hi : InvertsInvertible invert)
    (F : Fin n → ℝ) (h : PairsInRange P.sigma y F) (hq : RatingsInRange P.absSigma P.absEps q F) (hK : K.PosDef) (r : Derivs n)
    (hr : gpDerivatives P ⟨some y, none, some q⟩ F = .ok (some r)) (hB : 0 < (1 + K * r.1).det) :
    ∃ g g' g'' L, gradLikliHyper P fl ⟨some y, none, some q⟩ K dK invert F = .ok (some (g :: g' :: g'' :: L)) ∧
      L.length = (if fl.onlyProbit then 0 else dK.length) ∧
      DerivOfResult (fun s => likliHyper { P with sigma := s } ⟨some y, none, some q⟩ K F) g P.sigma ∧
      DerivOfResult (fun s => likliHyper { P with absSigma := s } ⟨some y, none, some q⟩ K F) g' P.absSigma := by
  obtain ⟨ds, dv, hg, -, hds, -⟩ := C64_grad_hyper P.absSigma P.absV P.absEps has hv q hy F hq
  obtain ⟨D, E, hD, hDd⟩ := C64_W_dSigma P.absSigma P.absV P.absEps has hv q F hq
  have hinv := hi _ hB.ne'.isUnit
  rw [gpDerivatives_both_eq] at hr
  injection hr with hr
  injection hr with hr
  subst hr
  simp only at hB hinv
  set W := prefW P.sigma y F + Matrix.of (absDerivatives P.absSigma P.absV P.absEps q F).1 with hWdef
  let dW : Fin n → Matrix (Fin n) (Fin n) ℝ := fun i =>
    Matrix.of (prefWdF P.sigma y F i) + Matrix.of (absWdF P.absSigma P.absV P.absEps q F i)
  have e : (fun _ : Fin n => (0 : ℝ)) = 0 := rfl
  refine ⟨probitGradEntry K (1 + K * W)⁻¹ (prefGradHyper P.sigma y F) (prefWdHyper P.sigma y F),
    probitGradEntry K (1 + K * W)⁻¹ ds (Matrix.of D), probitGradEntry K (1 + K * W)⁻¹ dv (Matrix.of E),
    if fl.onlyProbit then [] else dK.map (kernelGradEntry K (1 + K * W)⁻¹ W F
      (prefDerv P.sigma y F + (absDerivatives P.absSigma P.absV P.absEps q F).2.1) dW), ?_, ?_, ?_, ?_⟩
  · unfold gradLikliHyper
    rw [gpDerivatives_both_eq]
    have hkg : kernelGrad K (1 + K * W)⁻¹ W F (prefDerv P.sigma y F + (absDerivatives P.absSigma P.absV P.absEps q F).2.1)
        (dWF P ⟨some y, none, some q⟩ F) dK = .ok (dK.map (kernelGradEntry K (1 + K * W)⁻¹ W F
          (prefDerv P.sigma y F + (absDerivatives P.absSigma P.absV P.absEps q F).2.1) dW)) := by
      cases dK <;> rfl
    simp only [Except.bind, if_pos hK, gradLikliRest, ← hWdef, hinv, Option.isSome, Bool.false_eq_true, if_false, hkg, Except.map]
    cases ho : fl.onlyProbit <;> simp [pairGrad, absGrad, hfp, hfa, hvo, hg, hD, appendGrad]
  · cases fl.onlyProbit <;> simp
  · have hd := C38_noise_level P.sigma hs y F h
    have hM : MatDeriv (fun s => prefW s y F + Matrix.of (absDerivatives P.absSigma P.absV P.absEps q F).1) (prefWdHyper P.sigma y F + 0) P.sigma :=
      MatDeriv.add hd.2 (MatDeriv.const _ _)
    have hz : HasDerivAt (fun s => prefLogLik s y F + (absDerivatives P.absSigma P.absV P.absEps q F).2.2) (prefGradHyper P.sigma y F) P.sigma := by
      refine HasDerivAt.add_const _ (hd.1.congr_of_eventuallyEq ?_)
      filter_upwards [eventually_in_range_sigma hs.ne' y F (inRange_zk h)] with s hG
      simp only [prefLogLik, pairLogLik]
      exact sum_map_congr fun p hp => by rw [npClip_of_mem (hG p hp).1.le (hG p hp).2.le, zk_eq_pairZ]
    have hdc := ((((MatDeriv.const 1 P.sigma).add ((MatDeriv.const K P.sigma).mul hM)).det).continuousAt).eventually (lt_mem_nhds hB)
    refine ⟨_, ?_, (deriv_hyperValue (MatDeriv.const K P.sigma) hM (fun i => hasDerivAt_const P.sigma (F i)) hz hK hB.ne').congr_deriv ?_⟩
    · filter_upwards [hdc] with s hps
      simp [likliHyper, gpDerivatives_both_eq, Except.bind, hK, hyperValue, hps]
    · simp [probitGradEntry, e, Matrix.mul_assoc, hWdef]
  · have hM : MatDeriv (fun s => prefW P.sigma y F + Matrix.of (absDerivatives s P.absV P.absEps q F).1) (0 + Matrix.of D) P.absSigma :=
      (MatDeriv.const _ _).add hDd
    have hev : ∀ᶠ s in nhds P.absSigma, ∀ p ∈ q, InR s P.absEps (F p.2) := by
      have hin := inR_of_range hq
      clear hDd hM hB hinv hWdef W hg hD hds hq hy
      induction q with
      | nil => simp
      | cons p q ih =>
        filter_upwards [inR_eventually_sigma has.ne' (hin p (by simp)), ih fun a ha => hin a (by simp [ha])] with s h1 h2 a ha
        rcases List.mem_cons.1 ha with rfl | ha
        · exact h1
        · exact h2 a ha
    have hz : HasDerivAt (fun s => prefLogLik P.sigma y F + (absDerivatives s P.absV P.absEps q F).2.2) ds P.absSigma := by
      refine HasDerivAt.const_add _ (hds.congr_of_eventuallyEq ?_)
      filter_upwards [hev] with s hG
      rw [betaLogLik_eq hv hy F]
      exact sum_map_congr fun p hp => absPy_of_inR hv (hy p hp).1 (hy p hp).2 (hG p hp)
    have hdc := ((((MatDeriv.const 1 P.absSigma).add ((MatDeriv.const K P.absSigma).mul hM)).det).continuousAt).eventually (lt_mem_nhds hB)
    refine ⟨_, ?_, (deriv_hyperValue (MatDeriv.const K P.absSigma) hM (fun i => hasDerivAt_const P.absSigma (F i)) hz hK hB.ne').congr_deriv ?_⟩
    · filter_upwards [hdc] with s hps
      simp [likliHyper, gpDerivatives_both_eq, Except.bind, hK, hyperValue, hps]
    · simp [probitGradEntry, e, Matrix.mul_assoc, hWdef]

/-- One pair and one rating of two independent points meet the conditions. -/
example (P : ProbitSet) (he : P.absEps < 1 / 2) (hs : P.sigma ≠ 0) (has : 0 < P.absSigma) (hv : 0 < P.absV) :
    ∃ r, gpDerivatives P (n := 2) ⟨some [⟨1, 0, 1⟩], none, some [(1 / 4, 0)]⟩ (fun _ => 0) = .ok (some r) ∧
      PairsInRange P.sigma [⟨1, 0, 1⟩] (fun _ : Fin 2 => 0) ∧ RatingsInRange P.absSigma P.absEps [(1 / 4, 0)] (fun _ : Fin 2 => 0) ∧
      0 < (1 + 1 * r.1 : Matrix (Fin 2) (Fin 2) ℝ).det := by
  have hp : PairsInRange P.sigma [⟨1, 0, 1⟩] (fun _ : Fin 2 => 0) := by
    intro p _
    simp [pairZ]
  have hq := inRange_zero P.absSigma P.absEps he [((1 / 4 : ℝ), (0 : Fin 2))]
  refine ⟨_, gpDerivatives_both_eq P _ _ _, hp, hq, ?_⟩
  have hin := inR_of_range hq (1 / 4, 0) (by simp)
  have hpsd : (Matrix.of (absDerivatives P.absSigma P.absV P.absEps [((1 / 4 : ℝ), (0 : Fin 2))] fun _ => 0).1).PosSemidef := by
    have h0 : 0 < P.absV * isqrt2sig P.absSigma * phi 0 *
        (P.absV * isqrt2sig P.absSigma * phi 0 * (trigamma (P.absV / 2) + trigamma (P.absV / 2))) := by
      have h1 := trigamma_pos (show 0 < P.absV / 2 by linarith)
      have h2 : 0 < isqrt2sig P.absSigma := by rw [isqrt2sig]; positivity
      have h3 := phi_pos 0
      positivity
    have hd : (Matrix.of (absDerivatives P.absSigma P.absV P.absEps [((1 / 4 : ℝ), (0 : Fin 2))] fun _ => 0).1) =
        Matrix.diagonal ![P.absV * isqrt2sig P.absSigma * phi 0 *
        (P.absV * isqrt2sig P.absSigma * phi 0 * (trigamma (P.absV / 2) + trigamma (P.absV / 2))), 0] := by
      have hA : shA P.absV 0 = P.absV / 2 := by simp only [shA, Phi_zero]; ring
      have hB : shB P.absV 0 = P.absV / 2 := by simp only [shB, Phi_zero]; ring
      ext i j
      fin_cases i <;> fin_cases j <;>
        simp [absDerivatives, assignDiag, assignVec, absWdiag, alphaBeta_of_inR hin, hA, hB, stdNormPdf_eq]
    rw [hd]
    refine Matrix.PosSemidef.diagonal fun i => ?_
    fin_cases i
    · exact h0.le
    · exact le_rfl
  exact (one_add_mul_det Matrix.PosDef.one ((C37_W_psd P.sigma hs _ _ hp).1.add hpsd)).2.1

end Lop.Props
