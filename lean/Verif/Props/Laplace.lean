import Verif.Proofs.Laplace
import Verif.Props.PrefProbit
import Verif.Props.AbsProbit
import Verif.Props.OrdProbit
import Verif.Props.Optim
import Verif.Props.GP
import Mathlib.LinearAlgebra.Matrix.ToLinearEquiv
import Mathlib.LinearAlgebra.FiniteDimensional.Lemmas

/-! # C68, C73, C74: Laplace approximation of `PreferenceGP`, fit of `PreferenceLinear` -/

namespace Lop.Props

open Lop Lop.Spec Matrix

variable {n d t : Nat}

section C73

/-- What a returned prediction consists of. -/
theorem prefGpPredict_inv {cov : CovFn d} {Y : Fin t → Pt d} {K W : Matrix (Fin t) (Fin t) ℝ} {F : Fin t → ℝ}
    {invert : Matrix (Fin t) (Fin t) ℝ → Option (Matrix (Fin t) (Fin t) ℝ)} {X : Fin n → Pt d} {p : GPPred n}
    (h : prefGpPredict cov Y K W F invert X = .ok p) :
    ∃ Ks Kss tmp, cov _ _ X Y = .ok Ks ∧ cov _ _ X X = .ok Kss ∧ K.PosDef ∧ invert (1 + W * K) = some tmp ∧
      p.cov = Kss - (Ks * tmp) * (W * Ksᵀ) ∧ p.mu = Ks *ᵥ (K⁻¹ *ᵥ F) ∧ ∀ i, p.sigma i = max 0 (p.cov i i) := by
  unfold prefGpPredict at h
  cases h1 : cov _ _ X Y with
  | error e => rw [h1] at h; simp [bind, Except.bind] at h
  | ok Ks =>
    rw [h1] at h
    cases h2 : cov _ _ X X with
    | error e => rw [h2] at h; simp [bind, Except.bind] at h
    | ok Kss =>
      rw [h2] at h
      simp only [bind, Except.bind, laplacePredict] at h
      split at h
      · next hK =>
        split at h
        · cases h
        · next tmp htmp =>
          cases h
          exact ⟨Ks, Kss, tmp, rfl, rfl, hK, htmp, rfl, rfl, fun _ => rfl⟩
      · cases h

/-- C73: for every positive semidefinite `W` the covariance returned by `predict` is positive semidefinite and
at most the prior covariance; the returned variances are its diagonal (the clamp at zero never acts) and lie
between zero and the prior variances. -/
theorem C73_posterior (k : KExpr ℝ (Pt d)) (hok : AllLeaves (LeafOK (d = 1)) k)
    (hq : AllLeaves QuietIfZeroed k) (Y : Fin t → Pt d) (ht : 0 < t) (X : Fin n → Pt d) (hn : 0 < n)
    {K W : Matrix (Fin t) (Fin t) ℝ} (hKY : k.cov Y Y = .ok K) (hW : W.PosSemidef) (F : Fin t → ℝ)
    {invert : Matrix (Fin t) (Fin t) ℝ → Option (Matrix (Fin t) (Fin t) ℝ)} (hinv : InvertsInvertible invert)
    {p : GPPred n} (h : prefGpPredict (kcov k) Y K W F invert X = .ok p) :
    ∃ prior, k.cov X X = .ok prior ∧ p.cov.PosSemidef ∧ LoewnerLE p.cov prior ∧
      ∀ i, p.sigma i = p.cov i i ∧ 0 ≤ p.sigma i ∧ p.sigma i ≤ prior i i := by
  obtain ⟨Ks, Kss, tmp, hKs, hKss, hK, htmp, hcov, -, hsig⟩ := prefGpPredict_inv h
  have hS : (K⁻¹ + W).PosDef := hK.inv.add_posSemidef hW
  rw [hinv _ (laplace_reduction hK hS).1] at htmp
  cases htmp
  obtain ⟨J, hJ, hb⟩ := joint_psd k hok hq X Y hn hKss hKs hKY ht
  obtain ⟨h1, h2⟩ := laplace_posterior_psd hK hW (psd_fromBlocks hb hJ)
  rw [← hcov] at h1 h2
  refine ⟨Kss, hKss, h1, h2, fun i => ?_⟩
  have hd : 0 ≤ p.cov i i := h1.diag_nonneg
  have hr : 0 ≤ (Kss - p.cov) i i := h2.diag_nonneg
  rw [hsig, max_eq_right hd]
  exact ⟨rfl, hd, by simpa using hr⟩

/-- C73: the prediction is returned whenever the stored covariance matrix is positive definite and `W`
positive semidefinite. -/
theorem C73_returns (k : KExpr ℝ (Pt d)) (Y : Fin t → Pt d) (X : Fin n → Pt d) (hn : 0 < n)
    {K W : Matrix (Fin t) (Fin t) ℝ} (hK : K.PosDef) (hW : W.PosSemidef) (F : Fin t → ℝ)
    {invert : Matrix (Fin t) (Fin t) ℝ → Option (Matrix (Fin t) (Fin t) ℝ)} (hinv : InvertsInvertible invert) :
    ∃ p, prefGpPredict (kcov k) Y K W F invert X = .ok p := by
  obtain ⟨Ks, hKs⟩ := cov_returns k X Y hn
  obtain ⟨Kss, hKss⟩ := cov_returns k X X hn
  have hS : (K⁻¹ + W).PosDef := hK.inv.add_posSemidef hW
  simp only [prefGpPredict, kcov, hKs, hKss, bind, Except.bind, laplacePredict, if_pos hK,
    hinv _ (laplace_reduction hK hS).1]
  exact ⟨_, rfl⟩

/-- C73: the Laplace approximation. At the training points the returned mean is the mode `F`, and the returned
covariance is the inverse of minus the Hessian of the log posterior density, for every differentiable
log-likelihood whose Hessian at `F` is `-W`. -/
theorem C73_laplace (k : KExpr ℝ (Pt d)) (Y : Fin t → Pt d)
    {K W : Matrix (Fin t) (Fin t) ℝ} (hKY : k.cov Y Y = .ok K) (hW : W.PosSemidef) (F : Fin t → ℝ)
    {invert : Matrix (Fin t) (Fin t) ℝ → Option (Matrix (Fin t) (Fin t) ℝ)} (hinv : InvertsInvertible invert)
    (loglik : (Fin t → ℝ) → ℝ) (hll : IsHessianAt loglik (fun i j => -W i j) F)
    {p : GPPred t} (h : prefGpPredict (kcov k) Y K W F invert Y = .ok p) :
    p.mu = F ∧ ∃ H : Matrix (Fin t) (Fin t) ℝ, IsHessianAt (logPosterior K loglik) H F ∧
      p.cov * (-H) = 1 := by
  obtain ⟨Ks, Kss, tmp, hKs, hKss, hK, htmp, hcov, hmu, hsig⟩ := prefGpPredict_inv h
  have hKs' : k.cov Y Y = .ok Ks := hKs
  have hKss' : k.cov Y Y = .ok Kss := hKss
  rw [hKY] at hKs' hKss'
  cases hKs'; cases hKss'
  have hS : (K⁻¹ + W).PosDef := hK.inv.add_posSemidef hW
  have hKd : IsUnit K.det := (isUnit_iff_isUnit_det _).1 hK.isUnit
  have hSd : IsUnit (K⁻¹ + W).det := (isUnit_iff_isUnit_det _).1 hS.isUnit
  have hsym : (K⁻¹)ᵀ = K⁻¹ := by
    rw [← conjTranspose_eq_transpose_of_trivial]; exact hK.inv.isHermitian
  have hsymK : Kᵀ = K := by
    rw [← conjTranspose_eq_transpose_of_trivial]; exact hK.isHermitian
  rw [hinv _ (laplace_reduction hK hS).1] at htmp
  cases htmp
  refine ⟨by rw [hmu, mulVec_mulVec, mul_nonsing_inv _ hKd, one_mulVec], -(K⁻¹ + W), ?_, ?_⟩
  · have e : logPosterior K loglik = fun x => (loglik x + (-(1 / 2 * (x ⬝ᵥ (K⁻¹ *ᵥ x))))) +
        (-Real.log (Real.sqrt ((2 * Real.pi) ^ t * K.det))) := by
      funext x
      have hp : 0 < (2 * Real.pi) ^ t * K.det := mul_pos (by positivity) hK.det_pos
      rw [logPosterior, normalDensity, Real.log_div (Real.exp_pos _).ne' (Real.sqrt_pos.2 hp).ne', Real.log_exp]
      ring
    rw [e]
    have := (hll.add' (isHessianAt_quadratic hsym F)).add'
      (isHessianAt_const (-Real.log (Real.sqrt ((2 * Real.pi) ^ t * K.det))) F)
    have e2 : (-(K⁻¹ + W) : Matrix (Fin t) (Fin t) ℝ) = fun i j => -W i j + -K⁻¹ i j + 0 := by
      funext i j
      simp only [Matrix.neg_apply, Matrix.add_apply]
      ring
    rw [e2]
    exact this
  · rw [neg_neg, hcov, hsymK]
    have e : (K * (1 + W * K)⁻¹) * (W * K) = K * ((1 + W * K)⁻¹ * W) * K := by simp only [Matrix.mul_assoc]
    have e2 : (1 - (K⁻¹ + W)⁻¹ * K⁻¹) * K = K - (K⁻¹ + W)⁻¹ := by
      rw [Matrix.sub_mul, Matrix.one_mul, Matrix.mul_assoc, nonsing_inv_mul _ hKd, Matrix.mul_one]
    rw [e, (laplace_reduction hK hS).2, Matrix.mul_sub, mul_nonsing_inv _ hKd, mul_nonsing_inv_cancel_left _ _ hKd,
      e2, sub_sub_cancel, nonsing_inv_mul _ hSd]

/-- C73: without kernel noise the returned mean agrees with the mode at every query point which is a training
point. -/
theorem C73_mean (k : KExpr ℝ (Pt d)) (hq : AllLeaves NoNoise k) (Y : Fin t → Pt d)
    {K W : Matrix (Fin t) (Fin t) ℝ} (hKY : k.cov Y Y = .ok K) (F : Fin t → ℝ)
    {invert : Matrix (Fin t) (Fin t) ℝ → Option (Matrix (Fin t) (Fin t) ℝ)} (X : Fin n → Pt d)
    {p : GPPred n} (h : prefGpPredict (kcov k) Y K W F invert X = .ok p) (i : Fin n) (j : Fin t)
    (hx : X i = Y j) : p.mu i = F j := by
  obtain ⟨Ks, Kss, tmp, hKs, hKss, hK, htmp, hcov, hmu, hsig⟩ := prefGpPredict_inv h
  have hKd : IsUnit K.det := (isUnit_iff_isUnit_det _).1 hK.isUnit
  obtain ⟨g, hg⟩ := cov_pointwise k hq
  have hrow : Ks i = K j := by
    funext l
    rw [hg _ _ _ hKs, hg _ _ _ hKY, hx]
  have : (Ks *ᵥ (K⁻¹ *ᵥ F)) i = (K *ᵥ (K⁻¹ *ᵥ F)) j := by simp only [mulVec, hrow]
  rw [hmu, this, mulVec_mulVec, mul_nonsing_inv _ hKd, one_mulVec]

/-- C73: with no curvature (`W = 0`, the state of a model without labels) the returned covariance is the prior
covariance. -/
theorem C73_no_labels (k : KExpr ℝ (Pt d)) (Y : Fin t → Pt d) {K : Matrix (Fin t) (Fin t) ℝ}
    (F : Fin t → ℝ) {invert : Matrix (Fin t) (Fin t) ℝ → Option (Matrix (Fin t) (Fin t) ℝ)} (X : Fin n → Pt d)
    {p : GPPred n} (h : prefGpPredict (kcov k) Y K 0 F invert X = .ok p) : k.cov X X = .ok p.cov := by
  obtain ⟨Ks, Kss, tmp, hKs, hKss, hK, htmp, hcov, hmu, hsig⟩ := prefGpPredict_inv h
  rw [hcov, Matrix.zero_mul, Matrix.mul_zero, sub_zero]
  exact hKss

/-- C73 for pair labels: the `W` computed by `derivatives` satisfies the hypothesis of the theorems above as
long as no value difference is clipped, and it is minus the Hessian of the log-likelihood. -/
theorem C73_pairs_partial (P : ProbitSet) (hs : P.sigma ≠ 0) (y : List (IPair n)) (F : Fin n → ℝ)
    (h : PairsInRange P.sigma y F) :
    ∃ r, gpDerivatives P ⟨some y, none, none⟩ F = .ok (some r) ∧ r.1.PosSemidef ∧
      IsHessianAt (pairLogLik P.sigma y) (fun i j => -r.1 i j) F := by
  refine ⟨_, rfl, ?_, ?_⟩
  · have := (C37_W_psd P.sigma hs y F h).1
    simpa [pairPart, absPart, prefDerivatives] using this
  · have := (C37_derivatives P.sigma y F h).2.2
    simpa [pairPart, absPart, prefDerivatives] using this

/-- Non-trivial instance: three points, two comparisons. -/
example : PairsInRange 1 [⟨1, 0, 1⟩, ⟨-1, 1, 2⟩] (![0, 1, 2] : Fin 3 → ℝ) := by
  have h1 : 1 ≤ Real.sqrt 2 := by rw [Real.one_le_sqrt]; norm_num
  have h2 : 0 < 1 / (Real.sqrt 2 * 1) ∧ 1 / (Real.sqrt 2 * 1) ≤ 1 :=
    ⟨by positivity, by rw [div_le_one (by positivity)]; linarith⟩
  intro p hp
  simp only [List.mem_cons, List.not_mem_nil, or_false] at hp
  have e : ∀ x : ℝ, x / (Real.sqrt 2 * 1) = x * (1 / (Real.sqrt 2 * 1)) := fun x => by ring
  rcases hp with rfl | rfl
  · simp only [pairZ]
    rw [e]
    simp only [cons_val_zero, cons_val_one]
    constructor <;> push_cast <;> nlinarith
  · simp only [pairZ]
    rw [e]
    simp only [cons_val_one, cons_val]
    constructor <;> push_cast <;> nlinarith

/-- C73 refuted for a singular covariance matrix, e.g. two equal training points without kernel noise: `predict`
raises, for every fitted `F` and `W` and all query points. -/
theorem C73_singular_false (cov : CovFn d) (Y : Fin t → Pt d) {K W : Matrix (Fin t) (Fin t) ℝ} (F : Fin t → ℝ)
    (invert : Matrix (Fin t) (Fin t) ℝ → Option (Matrix (Fin t) (Fin t) ℝ)) (X : Fin n → Pt d)
    (i j : Fin t) (hij : i ≠ j) (hrow : K i = K j) :
    ∃ e, prefGpPredict cov Y K W F invert X = .error e := by
  have hK : ¬ K.PosDef := by
    intro hK
    exact hK.det_pos.ne' (det_zero_of_row_eq hij hrow)
  unfold prefGpPredict
  cases h1 : cov _ _ X Y with
  | error e => exact ⟨e, rfl⟩
  | ok Ks =>
    cases h2 : cov _ _ X X with
    | error e => exact ⟨e, rfl⟩
    | ok Kss => exact ⟨.valueError, if_neg hK⟩

/-- C73: when the inversion of `1 + W K` fails, `predict` raises the `LinAlgError` (a `ValueError`). -/
theorem C73_uninvertible (cov : CovFn d) (Y : Fin t → Pt d) {K W : Matrix (Fin t) (Fin t) ℝ} (F : Fin t → ℝ)
    (invert : Matrix (Fin t) (Fin t) ℝ → Option (Matrix (Fin t) (Fin t) ℝ)) (X : Fin n → Pt d) (hK : K.PosDef)
    (hi : invert (1 + W * K) = none) {A B} (h1 : cov n t X Y = .ok A) (h2 : cov n n X X = .ok B) :
    prefGpPredict cov Y K W F invert X = .error .valueError := by
  unfold prefGpPredict
  rw [h1]
  simp only [bind, Except.bind, h2]
  rw [laplacePredict, if_pos hK, hi]

/-- Hypotheses met: a curvature of -1 with prior variance 1 makes the matrix singular. -/
example : npInv (1 + (-1 : Matrix (Fin 1) (Fin 1) ℝ) * 1) = none := by
  simp [npInv]

/-- The covariance matrix of two equal points has two equal rows. -/
example (k : KExpr ℝ (Pt d)) (hq : AllLeaves NoNoise k) (x : Pt d) {K : Matrix (Fin 2) (Fin 2) ℝ}
    (h : k.cov (fun _ => x) (fun _ => x) = .ok K) : K 0 = K 1 := by
  obtain ⟨g, hg⟩ := cov_pointwise k hq
  funext l
  rw [hg _ _ _ h, hg _ _ _ h]

/-- C73 refuted for ordinal ratings: the curvature computed for a rating of 2 (two ratings, latent value at the
threshold) is negative, and the posterior variance at the rated point exceeds the prior variance: an observation
increases the uncertainty. -/
theorem C73_ordinal_counterexample :
    ∃ (o : OrdHyper ℝ) (P : ProbitSet) (r : Derivs 1) (K : Matrix (Fin 1) (Fin 1) ℝ) (p : GPPred 1),
      OrdHyper.init 1 0 2 = .ok o ∧ P.ord = o ∧
      gpDerivatives P ⟨none, some [(2, 0)], none⟩ (fun _ => 0) = .ok (some r) ∧
      (KExpr.leaf (.rbf 1 1 0) : KExpr ℝ (Pt 1)).cov (fun _ : Fin 1 => ![5]) (fun _ => ![5]) = .ok K ∧
      prefGpPredict (kcov (.leaf (.rbf 1 1 0))) (fun _ : Fin 1 => ![5]) K r.1 (fun _ => 0) npInv
        (fun _ : Fin 1 => ![5]) = .ok p ∧
      K 0 0 < p.sigma 0 := by
  have ho : OrdHyper.init (1 : ℝ) 0 2 = .ok ⟨1, 2, [.neg, .fin 0, .pos]⟩ := by
    simp [OrdHyper.init, OrdHyper.setHyper, OrdHyper.setB, linspace0]
  have ht : HasThresholds ⟨1, 2, [.neg, .fin 0, .pos]⟩ [0] := ⟨rfl, rfl⟩
  have hp : ordProb [0] 1 2 0 = 1 / 2 := by
    simp [ordProb, ordCum, Phi_zero]; norm_num
  have hder := ordDerivatives_eq ht (eps := 1 / 10 ^ 10) (by norm_num) [(2, (0 : Fin 1))] (fun _ => 0) (by simp)
    (by
      intro p hp k r hk hr
      simp only [List.mem_singleton] at hp
      subst hp
      rcases hk with hk | hk
      · obtain rfl : k = 1 := by simpa using hk
        simp at hr
      · obtain rfl : k = 0 := by simpa using hk
        simp at hr; subst hr; norm_num)
    (by
      simp only [List.mem_singleton, forall_eq]
      rw [hp]; norm_num)
  have hc : (KExpr.leaf (.rbf 1 1 0) : KExpr ℝ (Pt 1)).cov (fun _ : Fin 1 => (![5] : Pt 1))
      (fun _ : Fin 1 => ![5]) = .ok 1 := by
    simp only [KExpr.cov, KLeaf.cov]
    rw [rbfCov_ok (by omega)]
    congr 1
    ext i j
    obtain rfl : i = j := Subsingleton.elim _ _
    simp [noiseTerm_zero, rbfEval_self]
  set W : Matrix (Fin 1) (Fin 1) ℝ := Matrix.of (assignGrid
    ([((2 : Nat), (0 : Fin 1))].map fun q => (q.2, -codeD2 [0] 1 q.1 0))) with hWdef
  have hw : W 0 0 = -codeD2 [0] 1 2 0 := by
    rw [hWdef, Matrix.of_apply, assignGrid_eq, if_pos rfl]
    simp only [List.map_cons, List.map_nil]
    rw [show ([((0 : Fin 1), -codeD2 [0] 1 2 0)] : List (Fin 1 × ℝ)) = [] ++ (0, -codeD2 [0] 1 2 0) :: [] by rfl,
      lastValue_hit _ _ _ _ (by simp)]
  have hw2 : -1 < W 0 0 ∧ W 0 0 < 0 := by
    rw [hw]
    simp only [codeD2, ordD, hp, ordP]
    simp
    have h1 : phi 0 < 1 / 2 := by
      have h4 : 2 < Real.sqrt (2 * Real.pi) := by
        rw [Real.lt_sqrt (by norm_num)]
        nlinarith [Real.pi_gt_three]
      have h5 : phi 0 = 1 / Real.sqrt (2 * Real.pi) := by
        unfold phi
        rw [show (-((0 : ℝ) ^ 2) / 2) = 0 by norm_num, Real.exp_zero]
      rw [h5]
      exact one_div_lt_one_div_of_lt (by norm_num) h4
    have h2 := phi_pos 0
    constructor <;> nlinarith
  have hu : IsUnit (1 + W * (1 : Matrix (Fin 1) (Fin 1) ℝ)).det := by
    rw [det_unique, isUnit_iff_ne_zero]
    simp only [Matrix.mul_one, Matrix.add_apply, Fin.default_eq_zero, one_apply_eq]
    linarith [hw2.1]
  set M : Matrix (Fin 1) (Fin 1) ℝ := 1 + W * (1 : Matrix (Fin 1) (Fin 1) ℝ) with hM
  have hM0 : M 0 0 = 1 + W 0 0 := by simp [hM]
  have hinv : npInv M = some M⁻¹ := by
    unfold npInv
    rw [if_pos hu]
  have hMi : M 0 0 * M⁻¹ 0 0 = 1 := by
    have := congrFun (congrFun (mul_nonsing_inv M hu) 0) 0
    simpa [Matrix.mul_apply] using this
  obtain ⟨r, hr, hrW⟩ : ∃ r : Derivs 1, gpDerivatives ⟨1, ⟨1, 2, [.neg, .fin 0, .pos]⟩, 1 / 10 ^ 10, 1, 1, 1⟩
      ⟨none, some [(2, 0)], none⟩ (fun _ => 0) = .ok (some r) ∧ r.1 = W := by
    have : castLabels [(2, (0 : Fin 1))] = [(2, 0)] := rfl
    rw [this] at hder
    simp only [gpDerivatives, ordPart, hder, Except.map, Option.map]
    refine ⟨_, rfl, ?_⟩
    simp [pairPart, absPart, hWdef]
  refine ⟨_, ⟨1, ⟨1, 2, [.neg, .fin 0, .pos]⟩, 1 / 10 ^ 10, 1, 1, 1⟩, r, 1,
    ⟨(1 : Matrix (Fin 1) (Fin 1) ℝ) *ᵥ ((1 : Matrix (Fin 1) (Fin 1) ℝ)⁻¹ *ᵥ fun _ => 0), fun i => max 0 ((1 - (1 * M⁻¹) * (W * 1ᵀ) : Matrix (Fin 1) (Fin 1) ℝ) i i),
      1 - (1 * M⁻¹) * (W * 1ᵀ)⟩, ho, rfl, hr, hc, ?_, ?_⟩
  · unfold prefGpPredict
    simp only [kcov, hc, bind, Except.bind, laplacePredict, if_pos PosDef.one, hrW, ← hM, hinv]
  · simp only [Matrix.one_mul, Matrix.mul_one, Matrix.transpose_one, Matrix.sub_apply, one_apply_eq, Matrix.mul_apply,
      Finset.univ_unique, Fin.default_eq_zero, Finset.sum_singleton]
    rw [hM0] at hMi
    refine lt_max_of_lt_right ?_
    have h1 : 0 < 1 + W 0 0 := by linarith [hw2.1]
    have h2 : 0 < M⁻¹ 0 0 := by
      by_contra hle
      nlinarith
    nlinarith [hw2.2]

end C73

section C74

/-- The labels without ordinal ratings. -/
theorem gpDerivatives_noOrd (P : ProbitSet) (pairs : Option (List (IPair n))) (ratings : Option (List (ℝ × Fin n)))
    (F : Fin n → ℝ) (hv : 0 < P.absV)
    (h : LabelsInRange P.sigma P.absSigma P.absEps pairs ratings F) :
    ∃ r, gpDerivatives P ⟨pairs, none, ratings⟩ F = .ok (some r) ∧
      IsHessianAt (pairRatingLogLik P.sigma P.absSigma P.absV pairs ratings) (fun i j => -r.1 i j) F ∧
      IsGradientAt (pairRatingLogLik P.sigma P.absSigma P.absV pairs ratings) r.2.1 F ∧
      r.2.2 = pairRatingLogLik P.sigma P.absSigma P.absV pairs ratings F ∧
      logLikTraining P ⟨pairs, none, ratings⟩ F = .ok (some r.2.2) := by
  obtain ⟨h1, h2, h3, h4⟩ := h
  have hp : ∃ r : Derivs n, pairPart P.sigma F pairs = r ∧
      IsHessianAt (pairLogLik P.sigma (pairs.getD [])) (fun i j => -r.1 i j) F ∧
      IsGradientAt (pairLogLik P.sigma (pairs.getD [])) r.2.1 F ∧
      r.2.2 = pairLogLik P.sigma (pairs.getD []) F ∧ pairLogPart P F pairs = r.2.2 := by
    cases pairs with
    | none =>
      refine ⟨_, rfl, ?_, ?_, ?_, rfl⟩
      · have := isHessianAt_const (n := n) 0 F
        simp only [pairPart, Matrix.zero_apply, neg_zero]
        exact this
      · exact isGradientAt_const (n := n) 0 F
      · simp [pairPart, pairLogLik]
    | some y =>
      obtain ⟨a, b, c⟩ := C37_derivatives P.sigma y F h1
      exact ⟨_, rfl, c, b, a, rfl⟩
  have ha : ∃ r : Derivs n, absPart P F ratings = r ∧
      IsHessianAt (betaLogLik P.absSigma P.absV (ratings.getD [])) (fun i j => -r.1 i j) F ∧
      IsGradientAt (betaLogLik P.absSigma P.absV (ratings.getD [])) r.2.1 F ∧
      r.2.2 = betaLogLik P.absSigma P.absV (ratings.getD []) F ∧ absLogPart P F ratings = r.2.2 := by
    cases ratings with
    | none =>
      refine ⟨_, rfl, ?_, ?_, ?_, rfl⟩
      · have := isHessianAt_const (n := n) 0 F
        simp only [absPart, Matrix.zero_apply, neg_zero]
        exact this
      · exact isGradientAt_const (n := n) 0 F
      · simp [absPart, betaLogLik]
    | some y =>
      obtain ⟨a, b, c, e, -⟩ := C41_derivatives_partial P.absSigma P.absV P.absEps hv y h3 h4 F h2
      exact ⟨_, rfl, a, b, c, e.trans c.symm⟩
  obtain ⟨rp, ep, p1, p2, p3, p4⟩ := hp
  obtain ⟨ra, ea, a1, a2, a3, a4⟩ := ha
  refine ⟨(rp.1 + 0 + ra.1, rp.2.1 + 0 + ra.2.1, rp.2.2 + 0 + ra.2.2), ?_, ?_, ?_, ?_, ?_⟩
  · simp only [gpDerivatives, ordPart, Except.map, Option.map, ep, ea]
  · have := p1.add' a1
    have e : (fun i j => -(rp.1 + 0 + ra.1) i j) = fun i j => -rp.1 i j + -ra.1 i j := by
      funext i j
      simp only [Matrix.add_apply, Matrix.zero_apply]
      ring
    simp only [e]
    exact this
  · have := p2.add' a2
    simp only [add_zero]
    exact this
  · simp only [add_zero, p3, a3, pairRatingLogLik]
  · simp only [logLikTraining, ordLogPart, Except.map, Option.map, p4, a4]

theorem log_normalDensity {K : Matrix (Fin n) (Fin n) ℝ} (hK : K.PosDef) (F : Fin n → ℝ) :
    Real.log (normalDensity K F) = -(1 / 2 * (F ⬝ᵥ (K⁻¹ *ᵥ F))) - Real.log K.det / 2 -
      1 / 2 * n * Real.log (2 * Real.pi) := by
  have h1 : (0 : ℝ) < (2 * Real.pi) ^ n := by positivity
  have hp : 0 < (2 * Real.pi) ^ n * K.det := mul_pos h1 hK.det_pos
  rw [normalDensity, Real.log_div (Real.exp_pos _).ne' (Real.sqrt_pos.2 hp).ne', Real.log_exp,
    Real.log_sqrt hp.le, Real.log_mul h1.ne' hK.det_pos.ne', Real.log_pow]
  ring

theorem logPosterior_eq {K : Matrix (Fin n) (Fin n) ℝ} (hK : K.PosDef) (l : (Fin n → ℝ) → ℝ) :
    logPosterior K l = fun x => (l x + (-(1 / 2 * (x ⬝ᵥ (K⁻¹ *ᵥ x))))) +
      (-(Real.log K.det / 2) - 1 / 2 * n * Real.log (2 * Real.pi)) := by
  funext x
  rw [logPosterior, log_normalDensity hK]
  ring

theorem inv_symm {K : Matrix (Fin n) (Fin n) ℝ} (hK : K.PosDef) : (K⁻¹)ᵀ = K⁻¹ := by
  rw [← conjTranspose_eq_transpose_of_trivial]; exact hK.inv.isHermitian

/-- C74: for pair labels and ratings in (0,1) `likli_f` is the log posterior density, and the gradient and Hessian
which `find_mode` gives to the Newton update are its gradient and Hessian. Partial: nothing clipped, every point
rated at most once, no ordinal ratings (their Hessian is wrong, `C40`). -/
theorem C74_derivatives_partial (P : ProbitSet) (hv : 0 < P.absV) (pairs : Option (List (IPair n)))
    (ratings : Option (List (ℝ × Fin n))) (F : Fin n → ℝ)
    (h : LabelsInRange P.sigma P.absSigma P.absEps pairs ratings F) {K : Matrix (Fin n) (Fin n) ℝ}
    (hK : K.PosDef) :
    ∃ r, gpDerivatives P ⟨pairs, none, ratings⟩ F = .ok (some r) ∧
      likliF P ⟨pairs, none, ratings⟩ K F =
        .ok (some (logPosterior K (pairRatingLogLik P.sigma P.absSigma P.absV pairs ratings) F)) ∧
      IsGradientAt (logPosterior K (pairRatingLogLik P.sigma P.absSigma P.absV pairs ratings))
        (modeGradHess K F r).1 F ∧
      IsHessianAt (logPosterior K (pairRatingLogLik P.sigma P.absSigma P.absV pairs ratings))
        (modeGradHess K F r).2 F := by
  obtain ⟨r, hr, h1, h2, h3, h4⟩ := gpDerivatives_noOrd P pairs ratings F hv h
  refine ⟨r, hr, ?_, ?_, ?_⟩
  · simp only [likliF, h4, Except.map, Option.map, logPosterior, log_normalDensity hK, h3]
    congr 2
    ring
  · rw [logPosterior_eq hK]
    have := (h2.add' (isGradientAt_quadratic (inv_symm hK) F)).add_const'
      (-(Real.log K.det / 2) - 1 / 2 * n * Real.log (2 * Real.pi))
    rw [← sub_eq_add_neg] at this
    exact this
  · rw [logPosterior_eq hK]
    have := (h1.add' (isHessianAt_quadratic (inv_symm hK) F)).add'
      (isHessianAt_const (-(Real.log K.det / 2) - 1 / 2 * n * Real.log (2 * Real.pi)) F)
    have e : (modeGradHess K F r).2 = fun i j => -r.1 i j + -K⁻¹ i j + 0 := by
      funext i j
      simp only [modeGradHess, Matrix.sub_apply, Matrix.neg_apply]
      ring
    rw [e]
    exact this

/-- Hypotheses met: two pair labels and two ratings at latent values 0. -/
example : LabelsInRange 1 1 (1 / 1000) (some [⟨1, 0, 1⟩, ⟨-1, 1, 2⟩])
    (some [((1 / 4 : ℝ), (0 : Fin 3)), (3 / 4, 2)]) (fun _ => 0) := by
  refine ⟨?_, inRange_zero 1 _ (by norm_num) _, ?_, by decide⟩
  · intro p _
    simp [pairZ]
  · simp only [Option.getD_some, List.mem_cons, List.not_mem_nil, or_false]
    rintro p (rfl | rfl) <;> norm_num

/-- C74 (partial): with ordinal ratings too, the gradient given to `newton_update` is the gradient of the log posterior
(each point rated at most once, no likelihood below the clipping level); the curvature is not (`C40_hessian_false`). -/
theorem C74_ordinal_gradient_partial (P : ProbitSet) (hv : 0 < P.absV) (pairs : Option (List (IPair n)))
    (ratings : Option (List (ℝ × Fin n))) (F : Fin n → ℝ)
    (h : LabelsInRange P.sigma P.absSigma P.absEps pairs ratings F) {K : Matrix (Fin n) (Fin n) ℝ}
    (hK : K.PosDef) (th : List ℝ) (ht : HasThresholds P.ord th) (heps : 0 < P.ordEps) (y : List (Nat × Fin n))
    (hy : ∀ p ∈ y, 1 ≤ p.1 ∧ p.1 ≤ P.ord.n) (hr : OrdInRange th P.ord.sigma y F)
    (hl : ∀ p ∈ y, P.ordEps ≤ ordProb th P.ord.sigma p.1 (F p.2)) (hnd : (y.map (·.2)).Nodup) :
    ∃ r, gpDerivatives P ⟨pairs, some (y.map fun p => ((p.1 : Int), p.2)), ratings⟩ F = .ok (some r) ∧
      r.2.2 = pairRatingLogLik P.sigma P.absSigma P.absV pairs ratings F + ordLogLik th P.ord.sigma y F ∧
      IsGradientAt (logPosterior K fun G => pairRatingLogLik P.sigma P.absSigma P.absV pairs ratings G +
        ordLogLik th P.ord.sigma y G) (modeGradHess K F r).1 F := by
  obtain ⟨r, hr0, -, h2, h3, -⟩ := gpDerivatives_noOrd P pairs ratings F hv h
  obtain ⟨W, g, ll, ho, hll, hg, -⟩ := C40_gradient_partial P.ord th ht P.ordEps heps y F hy hr hl hnd
  have hr1 : r = ((pairPart P.sigma F pairs).1 + 0 + (absPart P F ratings).1,
      (pairPart P.sigma F pairs).2.1 + 0 + (absPart P F ratings).2.1,
      (pairPart P.sigma F pairs).2.2 + 0 + (absPart P F ratings).2.2) := by
    have : gpDerivatives P ⟨pairs, none, ratings⟩ F = .ok (some _) := rfl
    rw [this] at hr0
    exact (Option.some.inj (Except.ok.inj hr0)).symm
  refine ⟨((pairPart P.sigma F pairs).1 + Matrix.of W + (absPart P F ratings).1,
      (pairPart P.sigma F pairs).2.1 + g + (absPart P F ratings).2.1,
      (pairPart P.sigma F pairs).2.2 + ll + (absPart P F ratings).2.2), ?_, ?_, ?_⟩
  · simp [gpDerivatives, ordPart, ho, Except.map]
  · rw [← h3, ← hll, hr1]
    simp only
    ring
  · rw [logPosterior_eq hK]
    have := ((h2.add' hg).add' (isGradientAt_quadratic (inv_symm hK) F)).add_const'
      (-(Real.log K.det / 2) - 1 / 2 * n * Real.log (2 * Real.pi))
    have e : (modeGradHess K F ((pairPart P.sigma F pairs).1 + Matrix.of W + (absPart P F ratings).1,
      (pairPart P.sigma F pairs).2.1 + g + (absPart P F ratings).2.1,
      (pairPart P.sigma F pairs).2.2 + ll + (absPart P F ratings).2.2)).1 = r.2.1 + g + -(K⁻¹ *ᵥ F) := by
      rw [hr1]
      simp only [modeGradHess, add_zero]
      abel
    rw [e]
    exact this

/-- Hypotheses met for the ordinal part: one rating of 2 out of 2 at the threshold. -/
example : ∃ o : OrdHyper ℝ, OrdHyper.init 1 0 2 = .ok o ∧ HasThresholds o [0] ∧
    OrdInRange [0] o.sigma [(2, (0 : Fin 1))] (fun _ => 0) ∧ (1 / 10 ^ 10 : ℝ) ≤ ordProb [0] o.sigma 2 0 := by
  have hp : ordProb [0] 1 2 0 = 1 / 2 := by
    simp [ordProb, ordCum, Phi_zero]; norm_num
  refine ⟨⟨1, 2, [.neg, .fin 0, .pos]⟩, by simp [OrdHyper.init, OrdHyper.setHyper, OrdHyper.setB, linspace0], ⟨rfl, rfl⟩,
    ?_, by rw [hp]; norm_num⟩
  intro p hp k r hk hr
  simp only [List.mem_singleton] at hp
  subst hp
  rcases k with _ | _ | k
  · simp at hr; subst hr; norm_num
  all_goals simp at hr

/-- C74: the log posterior density of pair labels has exactly one maximiser. -/
theorem C74_mode_exists_unique (sigma : ℝ) (y : List (IPair n)) {K : Matrix (Fin n) (Fin n) ℝ}
    (hK : K.PosDef) :
    ∃! F, ∀ G, logPosterior K (pairLogLik sigma y) G ≤ logPosterior K (pairLogLik sigma y) F := by
  have hpd := hK.inv
  have hnonpos : ∀ F, pairLogLik sigma y F ≤ 0 := by
    intro F
    unfold pairLogLik
    have := sum_map_nonneg (l := y) (f := fun p => -Real.log (Phi (pairZ sigma F p))) fun p _ =>
      neg_nonneg.2 (Real.log_nonpos (Phi_pos _).le (Phi_lt_one _).le)
    rw [← sum_map_neg] at this
    linarith
  have hcontL : Continuous (pairLogLik sigma y) := by
    unfold pairLogLik
    refine continuous_list_sum y fun p _ => ?_
    have : Continuous fun F => pairZ sigma F p := by unfold pairZ; fun_prop
    exact (continuous_Phi.comp this).log fun F => (Phi_pos _).ne'
  have hcont : Continuous (logPosterior K (pairLogLik sigma y)) := by
    rw [logPosterior_eq hK]
    have : Continuous fun x : Fin n → ℝ => x ⬝ᵥ (K⁻¹ *ᵥ x) := by
      simp only [mulVec, dotProduct]
      fun_prop
    fun_prop
  obtain ⟨F, hF⟩ := exists_max_of_quadratic hpd hcont
    (c := -(Real.log K.det / 2) - 1 / 2 * n * Real.log (2 * Real.pi)) (by
      intro F
      rw [logPosterior_eq hK]
      have := hnonpos F
      simp only
      linarith)
  refine ⟨F, hF, fun G hG => ?_⟩
  by_contra hne
  -- the midpoint is strictly better
  have hconc := (C37_concave sigma y).2 (Set.mem_univ F) (Set.mem_univ G) (show (0 : ℝ) ≤ 1 / 2 by norm_num)
    (show (0 : ℝ) ≤ 1 / 2 by norm_num) (by norm_num)
  have hmid := hF ((1 / 2 : ℝ) • F + (1 / 2 : ℝ) • G)
  have heq : logPosterior K (pairLogLik sigma y) F = logPosterior K (pairLogLik sigma y) G :=
    le_antisymm (hG F) (hF G)
  have hq := hpd.dotProduct_mulVec_pos (x := G - F) (sub_ne_zero.2 hne)
  simp only [star_trivial] at hq
  have q1 := quadratic_expand (inv_symm hK) F G
  have q2 := quadratic_expand (inv_symm hK) F ((1 / 2 : ℝ) • F + (1 / 2 : ℝ) • G)
  have ed : (1 / 2 : ℝ) • F + (1 / 2 : ℝ) • G - F = (1 / 2 : ℝ) • (G - F) := by
    funext i
    simp only [Pi.sub_apply, Pi.add_apply, Pi.smul_apply, smul_eq_mul]
    ring
  rw [ed] at q2
  simp only [mulVec_smul, dotProduct_smul, smul_dotProduct, smul_eq_mul] at q2
  rw [logPosterior_eq hK] at hmid heq
  simp only [smul_eq_mul] at hmid heq hconc
  linarith

/-- C74: where the gradient of `find_mode` vanishes (nothing clipped), the iterate is the unique maximiser of the
log posterior density. -/
theorem C74_stationary (P : ProbitSet) (y : List (IPair n)) (F : Fin n → ℝ)
    (h : PairsInRange P.sigma y F) {K : Matrix (Fin n) (Fin n) ℝ} (hK : K.PosDef) (r : Derivs n)
    (hr : gpDerivatives P ⟨some y, none, none⟩ F = .ok (some r)) (h0 : (modeGradHess K F r).1 = 0)
    (G : Fin n → ℝ) (hG : G ≠ F) :
    logPosterior K (pairLogLik P.sigma y) G < logPosterior K (pairLogLik P.sigma y) F := by
  have hgrad : r.2.1 = prefDerv P.sigma y F := by
    have : gpDerivatives P ⟨some y, none, none⟩ F = .ok (some _) := rfl
    rw [this] at hr
    cases hr
    simp [pairPart, absPart, prefDerivatives]
  have hg : prefDerv P.sigma y F = K⁻¹ *ᵥ F := by
    have : r.2.1 - K⁻¹ *ᵥ F = 0 := h0
    rw [hgrad] at this
    exact sub_eq_zero.1 this
  have ht := concave_tangent (C37_concave P.sigma y) (C37_derivatives P.sigma y F h).2.1 G
  have hq := hK.inv.dotProduct_mulVec_pos (x := G - F) (sub_ne_zero.2 hG)
  simp only [star_trivial] at hq
  have q1 := quadratic_expand (inv_symm hK) F G
  simp only [prefDerivatives, hg] at ht
  rw [neg_dotProduct] at q1
  rw [logPosterior_eq hK]
  simp only
  linarith

/-- C74: each Newton update of `find_mode` on pair labels moves uphill on the log posterior density (first order,
strictly unless the gradient vanishes). -/
theorem C74_update_uphill (P : ProbitSet) (hs : P.sigma ≠ 0) (y : List (IPair n)) (F : Fin n → ℝ)
    (h : PairsInRange P.sigma y F) {K : Matrix (Fin n) (Fin n) ℝ} (hK : K.PosDef)
    {invert : Matrix (Fin n) (Fin n) ℝ → Option (Matrix (Fin n) (Fin n) ℝ)} (hinv : InvertsInvertible invert) :
    ∃ F' g, findModeUpdate P ⟨some y, none, none⟩ K invert F = .ok (some F') ∧
      IsGradientAt (logPosterior K (pairLogLik P.sigma y)) g F ∧
      0 ≤ g ⬝ᵥ (F' - F) ∧ (g ≠ 0 → 0 < g ⬝ᵥ (F' - F)) := by
  obtain ⟨r, hr, hW, -⟩ := C73_pairs_partial P hs y F h
  have hgrad : r.2.1 = prefDerv P.sigma y F := by
    have : gpDerivatives P ⟨some y, none, none⟩ F = .ok (some _) := rfl
    rw [this] at hr
    cases hr
    simp [pairPart, absPart, prefDerivatives]
  have hneg : (-(modeGradHess K F r).2).PosDef := by
    have : -(modeGradHess K F r).2 = K⁻¹ + r.1 := by
      simp only [modeGradHess]
      abel
    rw [this]
    exact hK.inv.add_posSemidef hW
  have hdet : IsUnit (modeGradHess K F r).2.det := by
    have h1 := hneg.isUnit
    rw [IsUnit.neg_iff, Matrix.isUnit_iff_isUnit_det] at h1
    exact h1
  obtain ⟨F', h1, h2, h3⟩ : ∃ F', newtonUpdate F (modeGradHess K F r).1 (modeGradHess K F r).2
      (fun F => lossValue (likliF P ⟨some y, none, none⟩ K F)) invert .binary 3 = .ok F' ∧
      0 ≤ (modeGradHess K F r).1 ⬝ᵥ (F' - F) ∧
      ((modeGradHess K F r).1 ≠ 0 → 0 < (modeGradHess K F r).1 ⬝ᵥ (F' - F)) := by
    obtain ⟨F', e, h⟩ := C30_binary_partial F (modeGradHess K F r).1 (modeGradHess K F r).2 hneg
      (fun F => lossValue (likliF P ⟨some y, none, none⟩ K F)) 3
    refine ⟨F', ?_, h⟩
    have e2 : npInv (modeGradHess K F r).2 = some (modeGradHess K F r).2⁻¹ := by
      unfold npInv; rw [if_pos hdet]
    simp only [newtonUpdate, descentDir, e2] at e
    simp only [newtonUpdate, descentDir, hinv _ hdet]
    exact e
  refine ⟨F', _, ?_, ?_, h2, h3⟩
  · simp only [findModeUpdate, hr, bind, Except.bind, h1, pure, Except.pure]
  · rw [logPosterior_eq hK]
    have := ((C37_derivatives P.sigma y F h).2.1.add' (isGradientAt_quadratic (inv_symm hK) F)).add_const'
      (-(Real.log K.det / 2) - 1 / 2 * n * Real.log (2 * Real.pi))
    rw [← sub_eq_add_neg] at this
    simp only [modeGradHess, hgrad]
    exact this

end C74

section C68

/-- C68: `PreferenceLinear.derivatives` returns minus the Hessian, the gradient and the value of the log-likelihood
of the labels as a function of the weights. Partial: nothing clipped, every point rated at most once, no ordinal
ratings. -/
theorem C68_derivatives_partial (P : ProbitSet) (hv : 0 < P.absV) (pairs : Option (List (IPair n)))
    (ratings : Option (List (ℝ × Fin n))) (X : Matrix (Fin n) (Fin d) ℝ) (w : Fin d → ℝ)
    (h : LabelsInRange P.sigma P.absSigma P.absEps pairs ratings (X *ᵥ w)) :
    ∃ r, linDerivatives P ⟨pairs, none, ratings⟩ X w = .ok (some r) ∧
      IsHessianAt (fun w => pairRatingLogLik P.sigma P.absSigma P.absV pairs ratings (X *ᵥ w)) (-r.1) w ∧
      IsGradientAt (fun w => pairRatingLogLik P.sigma P.absSigma P.absV pairs ratings (X *ᵥ w)) r.2.1 w ∧
      linLoss P ⟨pairs, none, ratings⟩ X w = .ok (some (pairRatingLogLik P.sigma P.absSigma P.absV pairs ratings (X *ᵥ w))) := by
  obtain ⟨r, hr, h1, h2, h3, h4⟩ := gpDerivatives_noOrd P pairs ratings (X *ᵥ w) hv h
  refine ⟨(Xᵀ * r.1 * X, r.2.1 ᵥ* X, r.2.2), ?_, ?_, ?_, ?_⟩
  · simp only [linDerivatives, linValues, hr, Except.map, Option.map]
  · have := IsHessianAt.comp_mulVec (H := -r.1) X w h1
    have e : (-(Xᵀ * r.1 * X)) = Xᵀ * (-r.1) * X := by simp
    simp only [e]
    exact this
  · exact h2.comp_mulVec X w
  · simp only [linLoss, linValues, h4, h3]

theorem prefW_mulVec_zero (sigma : ℝ) (y : List (IPair n)) (F x : Fin n → ℝ)
    (hx : ∀ p ∈ y, p.dk ≠ 0 → x p.u = x p.v) : prefW sigma y F *ᵥ x = 0 := by
  funext i
  simp only [mulVec, dotProduct, Pi.zero_apply]
  simp only [prefW_apply, sum_map_mul]
  rw [sum_finset_list]
  refine List.sum_eq_zero fun z hz => ?_
  obtain ⟨p, hp, rfl⟩ := List.mem_map.1 hz
  by_cases h0 : p.dk = 0
  · simp [h0]
  · have e : ∀ c a : ℝ, (∑ j, c * (a * inc p j) * x j) = c * a * (x p.v - x p.u) := by
      intro c a
      rw [← sum_inc_mul, Finset.mul_sum]
      exact Finset.sum_congr rfl fun j _ => by ring
    rw [e, hx p hp h0, sub_self, mul_zero]

theorem linDerivatives_pairs (P : ProbitSet) (y : List (IPair n)) (X : Matrix (Fin n) (Fin d) ℝ) (w : Fin d → ℝ) :
    linDerivatives P ⟨some y, none, none⟩ X w =
      .ok (some (Xᵀ * prefW P.sigma y (X *ᵥ w) * X, prefDerv P.sigma y (X *ᵥ w) ᵥ* X,
        prefLogLik P.sigma y (X *ᵥ w))) := by
  simp only [linDerivatives, linValues, gpDerivatives, ordPart, pairPart, absPart, Except.map, Option.map,
    prefDerivatives, add_zero]

/-- C68: if the comparisons determine the weights, every update of the fit moves uphill on the log-likelihood.
Partial: nothing clipped. -/
theorem C68_uphill_partial (P : ProbitSet) (hs : P.sigma ≠ 0) (y : List (IPair n)) (X : Matrix (Fin n) (Fin d) ℝ)
    (w : Fin d → ℝ) (h : PairsInRange P.sigma y (X *ᵥ w)) (hdet : ¬ Undetermined X y) :
    ∃ w' g, linUpdate P ⟨some y, none, none⟩ X npInv w = .ok (some w') ∧
      IsGradientAt (fun w => pairLogLik P.sigma y (X *ᵥ w)) g w ∧
      0 ≤ g ⬝ᵥ (w' - w) ∧ (g ≠ 0 → 0 < g ⬝ᵥ (w' - w)) := by
  obtain ⟨hpsd, -, hker⟩ := C37_W_psd P.sigma hs y (X *ᵥ w) h
  have hpd : (-(-(Xᵀ * prefW P.sigma y (X *ᵥ w) * X))).PosDef := by
    rw [neg_neg]
    have hps : (Xᵀ * prefW P.sigma y (X *ᵥ w) * X).PosSemidef := by
      have := hpsd.conjTranspose_mul_mul_same X
      rwa [conjTranspose_eq_transpose_of_trivial] at this
    refine PosDef.of_dotProduct_mulVec_pos hps.isHermitian fun x hx => ?_
    simp only [star_trivial]
    have e : x ⬝ᵥ ((Xᵀ * prefW P.sigma y (X *ᵥ w) * X) *ᵥ x) =
        (X *ᵥ x) ⬝ᵥ (prefW P.sigma y (X *ᵥ w) *ᵥ (X *ᵥ x)) := by
      rw [← mulVec_mulVec, ← mulVec_mulVec, dotProduct_mulVec, vecMul_transpose]
    rw [e]
    have h0 := hpsd.dotProduct_mulVec_nonneg (X *ᵥ x)
    simp only [star_trivial] at h0
    refine lt_of_le_of_ne h0 fun he => hdet ⟨x, hx, ?_⟩
    refine (hker (X *ᵥ x)).1 ?_
    rw [he]
    rfl
  obtain ⟨w', e, h1, h2⟩ := C30_binary_partial w (prefDerv P.sigma y (X *ᵥ w) ᵥ* X)
    (-(Xᵀ * prefW P.sigma y (X *ᵥ w) * X)) hpd
    (fun w => lossValue (linLoss P ⟨some y, none, none⟩ X w)) 5
  refine ⟨w', _, ?_, (C37_derivatives P.sigma y (X *ᵥ w) h).2.1.comp_mulVec X w, h1, h2⟩
  simp only [linUpdate, linDerivatives_pairs, bind, Except.bind, e, pure, Except.pure]

/-- Two points, one feature, one comparison: the weights are determined. -/
example : ¬ Undetermined (!![1; 2] : Matrix (Fin 2) (Fin 1) ℝ) [⟨1, 0, 1⟩] := by
  rintro ⟨w, hw, h⟩
  have := h ⟨1, 0, 1⟩ (by simp) (by decide)
  simp [mulVec, dotProduct] at this
  exact hw (funext fun i => by rw [Subsingleton.elim i 0]; simp; linarith)

/-- With undetermined weights the Hessian is singular, `np.linalg.inv` raises and the update subtracts a positive
multiple of the gradient. -/
theorem linUpdate_undetermined (P : ProbitSet) (y : List (IPair n)) (X : Matrix (Fin n) (Fin d) ℝ)
    (w : Fin d → ℝ) (hu : Undetermined X y) :
    ∃ lam : ℝ, 0 < lam ∧ linUpdate P ⟨some y, none, none⟩ X npInv w =
      .ok (some (w - lam • (prefDerv P.sigma y (X *ᵥ w) ᵥ* X))) := by
  obtain ⟨x, hx, hz⟩ := hu
  have hdet : (-(Xᵀ * prefW P.sigma y (X *ᵥ w) * X)).det = 0 := by
    rw [← exists_mulVec_eq_zero_iff]
    refine ⟨x, hx, ?_⟩
    rw [neg_mulVec, ← mulVec_mulVec, ← mulVec_mulVec, prefW_mulVec_zero P.sigma y _ _ hz, mulVec_zero, neg_zero]
  have hinv : npInv (-(Xᵀ * prefW P.sigma y (X *ᵥ w) * X)) = none := by
    unfold npInv
    rw [if_neg (by rw [hdet]; simp)]
  refine ⟨_, C28_positive (fun lam : ℝ => lossValue (linLoss P ⟨some y, none, none⟩ X
    (w - lam • (prefDerv P.sigma y (X *ᵥ w) ᵥ* X)))) 5 (3 / 2) (by norm_num), ?_⟩
  simp only [linUpdate, linDerivatives_pairs, bind, Except.bind, newtonUpdate, descentDir, hinv, pure, Except.pure]

/-- C68 refuted when the comparisons do not determine the weights: every update strictly lowers the likelihood of
the labels (wherever its gradient does not vanish). -/
theorem C68_undetermined_false (P : ProbitSet) (y : List (IPair n)) (X : Matrix (Fin n) (Fin d) ℝ)
    (w : Fin d → ℝ) (h : PairsInRange P.sigma y (X *ᵥ w)) (hu : Undetermined X y)
    (hg : prefDerv P.sigma y (X *ᵥ w) ᵥ* X ≠ 0) :
    ∃ w', linUpdate P ⟨some y, none, none⟩ X npInv w = .ok (some w') ∧
      pairLogLik P.sigma y (X *ᵥ w') < pairLogLik P.sigma y (X *ᵥ w) := by
  obtain ⟨lam, hlam, e⟩ := linUpdate_undetermined P y X w hu
  refine ⟨_, e, ?_⟩
  have ht := concave_tangent (C37_concave P.sigma y) (C37_derivatives P.sigma y (X *ᵥ w) h).2.1
    (X *ᵥ (w - lam • (prefDerv P.sigma y (X *ᵥ w) ᵥ* X)))
  refine lt_of_le_of_lt ht ?_
  simp only [prefDerivatives]
  rw [← mulVec_sub, dotProduct_mulVec, sub_sub_cancel_left, dotProduct_neg, dotProduct_smul, smul_eq_mul]
  have : 0 < (prefDerv P.sigma y (X *ᵥ w) ᵥ* X) ⬝ᵥ (prefDerv P.sigma y (X *ᵥ w) ᵥ* X) := by
    refine lt_of_le_of_ne ?_ ?_
    · exact Finset.sum_nonneg fun i _ => mul_self_nonneg _
    · intro h0
      exact hg (dotProduct_self_eq_zero.1 h0.symm)
  nlinarith

/-- C68: fewer comparisons than features never determine the weights. -/
theorem C68_few_pairs (X : Matrix (Fin n) (Fin d) ℝ) (y : List (IPair n)) (h : y.length < d) :
    Undetermined X y := by
  let f : (Fin d → ℝ) →ₗ[ℝ] (Fin y.length → ℝ) :=
    LinearMap.pi fun j => (LinearMap.proj (y.get j).u).comp X.mulVecLin - (LinearMap.proj (y.get j).v).comp X.mulVecLin
  have hk : LinearMap.ker f ≠ ⊥ := LinearMap.ker_ne_bot_of_finrank_lt (by simpa using h)
  obtain ⟨w, hw, h0⟩ := (Submodule.ne_bot_iff _).1 hk
  refine ⟨w, h0, fun p hp _ => ?_⟩
  obtain ⟨j, rfl⟩ := List.mem_iff_get.1 hp
  have := congrFun (LinearMap.mem_ker.1 hw) j
  simp [f] at this
  exact sub_eq_zero.1 this

theorem linearLoop_decrease {α : Type*} (step : Option α → Except PyErr (Option α × Bool)) (adv : α → ℝ)
    (hstep : ∀ w, ∃ w' b, step (some w) = .ok (some w', b) ∧ adv w' < adv w) (maxloops : Nat) :
    ∀ (fuel : Nat) (w0 : α) (go : Bool) (loops : Nat), maxloops < fuel + loops → loops ≤ maxloops →
      ∃ w k, linearLoop step maxloops fuel (some w0) go loops = some (.ok (some w, k)) ∧ adv w ≤ adv w0 ∧
        (go = true → loops < maxloops → adv w < adv w0) := by
  intro fuel
  induction fuel with
  | zero =>
    intro w0 go loops h h'
    omega
  | succ fuel ih =>
    intro w0 go loops h h'
    by_cases hc : go = true ∧ loops < maxloops
    · obtain ⟨w', b, hs, hlt⟩ := hstep w0
      obtain ⟨w, k, h1, h2, -⟩ := ih w' b (loops + 1) (by omega) (by omega)
      refine ⟨w, k, ?_, h2.trans hlt.le, fun _ _ => h2.trans_lt hlt⟩
      rw [linearLoop, if_pos hc, hs]
      exact h1
    · refine ⟨w0, loops, ?_, le_rfl, fun h1 h2 => absurd ⟨h1, h2⟩ hc⟩
      rw [linearLoop, if_neg hc]

/-- C68 refuted for the whole fit: with one comparison and at least two features, `optimize` ends with weights that
rate the preferred point lower, relative to the other one, than the random start weights did. -/
theorem C68_fit_reverses_false (P : ProbitSet) (hs : 0 < P.sigma) (p : IPair n) (hdk : p.dk ≠ 0)
    (X : Matrix (Fin n) (Fin d) ℝ) (hd : 2 ≤ d) (hX : X p.u ≠ X p.v) (w0 : Fin d → ℝ) :
    ∃ w, linFit P ⟨some [p], none, none⟩ X w0 = .ok (some w) ∧
      p.dk * ((X *ᵥ w) p.v - (X *ᵥ w) p.u) < p.dk * ((X *ᵥ w0) p.v - (X *ᵥ w0) p.u) := by
  have hstep : ∀ w, ∃ w' b, linStep P ⟨some [p], none, none⟩ X (some w) = .ok (some w', b) ∧
      p.dk * ((X *ᵥ w') p.v - (X *ᵥ w') p.u) < p.dk * ((X *ᵥ w) p.v - (X *ᵥ w) p.u) := by
    intro w
    obtain ⟨lam, hlam, e⟩ := linUpdate_undetermined P [p] X w (C68_few_pairs X [p] hd)
    refine ⟨_, _, by simp only [linStep, e, Except.map]; rfl, ?_⟩
    set c : ℝ := p.dk * pdfCdfRatio (zk P.sigma (X *ᵥ w) p) * isqrt2sig P.sigma with hc
    have hv : prefDerv P.sigma [p] (X *ᵥ w) ᵥ* X = c • (X p.v - X p.u) := by
      funext k
      simp only [vecMul, dotProduct, prefDerv_apply, List.map_cons, List.map_nil, List.sum_cons, List.sum_nil,
        add_zero, Pi.smul_apply, Pi.sub_apply, smul_eq_mul]
      rw [← hc, ← sum_inc_mul p (fun i => X i k), Finset.mul_sum]
      exact Finset.sum_congr rfl fun i _ => by ring
    have hrow : ∀ (i : Fin n) (x : Fin d → ℝ), (X *ᵥ x) i = X i ⬝ᵥ x := fun _ _ => rfl
    rw [hv]
    simp only [hrow, dotProduct_sub, dotProduct_smul, smul_eq_mul]
    have hpos : 0 < (X p.v - X p.u) ⬝ᵥ (X p.v - X p.u) := by
      refine lt_of_le_of_ne (Finset.sum_nonneg fun i _ => mul_self_nonneg _) fun h0 => ?_
      exact hX (sub_eq_zero.1 (dotProduct_self_eq_zero.1 h0.symm)).symm
    simp only [sub_dotProduct, dotProduct_sub] at hpos
    have hcd : 0 < p.dk * c := by
      have h1 : 0 < pdfCdfRatio (zk P.sigma (X *ᵥ w) p) := div_pos (phi_pos _) (Phi_pos _)
      have h2 := isqrt_pos hs
      have h3 : (0 : ℝ) < (p.dk : ℝ) * p.dk := by
        exact mul_self_pos.2 (by exact_mod_cast hdk)
      have : p.dk * c = (p.dk : ℝ) * p.dk * (pdfCdfRatio (zk P.sigma (X *ᵥ w) p) * isqrt2sig P.sigma) := by
        rw [hc]; ring
      rw [this]
      positivity
    have := mul_pos (mul_pos hlam hcd) hpos
    nlinarith
  obtain ⟨w, k, h1, -, h3⟩ := linearLoop_decrease (linStep P ⟨some [p], none, none⟩ X)
    (fun w => p.dk * ((X *ᵥ w) p.v - (X *ᵥ w) p.u)) hstep 100 101 w0 true 0 (by omega) (by omega)
  refine ⟨w, ?_, h3 rfl (by omega)⟩
  simp only [linFit, h1, Except.map]

theorem linearLoop_trace (P : ProbitSet) (y : TrainLabels n) (X : Matrix (Fin n) (Fin d) ℝ) (w : Fin d → ℝ) (maxloops : Nat) :
    ∀ (fuel : Nat) (w0 : Fin d → ℝ) (loops k' : Nat), loops < maxloops →
      linearLoop (linStep P y X) maxloops fuel (some w0) true loops = some (.ok (some w, k')) →
      ∃ (k : Nat) (v : Nat → Fin d → ℝ), 0 < k ∧ k' = loops + k ∧ k' ≤ maxloops ∧ v 0 = w0 ∧ v k = w ∧
        (∀ j < k, linUpdate P y X npInv (v j) = .ok (some (v (j + 1)))) ∧
        (∀ j, j + 1 < k → 0.002 < Real.sqrt (∑ i, (v (j + 1) i - v j i) ^ 2)) ∧
        (k' = maxloops ∨ Real.sqrt (∑ i, (v k i - v (k - 1) i) ^ 2) ≤ 0.002) := by
  intro fuel
  induction fuel with
  | zero => intro w0 loops k' h h'; simp [linearLoop] at h'
  | succ fuel ih =>
    intro w0 loops k' hl h
    rw [linearLoop, if_pos ⟨rfl, hl⟩] at h
    cases hu : linUpdate P y X npInv w0 with
    | error e => simp [linStep, hu, Except.map] at h
    | ok r =>
      cases r with
      | none =>
        simp only [linStep, hu, Except.map] at h
        cases fuel <;> simp [linearLoop] at h
      | some w1 =>
        simp only [linStep, hu, Except.map] at h
        by_cases hb : 2 / 1000 < Real.sqrt (∑ i, (w1 i - w0 i) ^ 2)
        · rw [decide_eq_true hb] at h
          by_cases hm : loops + 1 < maxloops
          · obtain ⟨k, v, h1, h2, h3, h4, h5, h6, h7, h8⟩ := ih w1 (loops + 1) k' hm h
            refine ⟨k + 1, fun j => j.casesOn w0 v, by omega, by omega, h3, rfl, h5, ?_, ?_, ?_⟩
            · intro j hj
              cases j with
              | zero => simpa [h4] using hu
              | succ j => exact h6 j (by omega)
            · intro j hj
              cases j with
              | zero =>
                have : (0.002 : ℝ) = 2 / 1000 := by norm_num
                rw [this]
                simpa [h4] using hb
              | succ j => exact h7 j (by omega)
            · obtain ⟨k, rfl⟩ : ∃ q, k = q + 1 := ⟨k - 1, by omega⟩
              exact h8
          · have : fuel ≠ 0 := by rintro rfl; simp [linearLoop] at h
            obtain ⟨fuel, rfl⟩ : ∃ q, fuel = q + 1 := ⟨fuel - 1, by omega⟩
            rw [linearLoop, if_neg (by simp [hm])] at h
            simp only [Option.some.injEq, Except.ok.injEq, Prod.mk.injEq] at h
            obtain ⟨rfl, rfl⟩ := h
            refine ⟨1, fun j => j.casesOn w0 fun _ => w1, by omega, rfl, by omega, rfl, rfl, ?_, ?_, .inl (by omega)⟩
            · intro j hj
              obtain rfl : j = 0 := by omega
              exact hu
            · intro j hj; omega
        · rw [decide_eq_false hb] at h
          have : fuel ≠ 0 := by rintro rfl; simp [linearLoop] at h
          obtain ⟨fuel, rfl⟩ : ∃ q, fuel = q + 1 := ⟨fuel - 1, by omega⟩
          rw [linearLoop, if_neg (by simp)] at h
          simp only [Option.some.injEq, Except.ok.injEq, Prod.mk.injEq] at h
          obtain ⟨rfl, rfl⟩ := h
          refine ⟨1, fun j => j.casesOn w0 fun _ => w1, by omega, rfl, by omega, rfl, rfl, ?_, ?_, .inr ?_⟩
          · intro j hj
            obtain rfl : j = 0 := by omega
            exact hu
          · intro j hj; omega
          · have : (0.002 : ℝ) = 2 / 1000 := by norm_num
            rw [this]
            exact not_lt.1 hb

/-- C63, the stopping rule of `PreferenceLinear.optimize`: weights that are returned are the last of at most 100 updates,
every update but the last moved the weights by more than 0.002, and the last one did not, unless it was the hundredth. -/
theorem C63_linear_tolerance (P : ProbitSet) (y : TrainLabels n) (X : Matrix (Fin n) (Fin d) ℝ) (w0 w : Fin d → ℝ)
    (h : linFit P y X w0 = .ok (some w)) :
    ∃ (k : Nat) (v : Nat → Fin d → ℝ), 0 < k ∧ k ≤ 100 ∧ v 0 = w0 ∧ v k = w ∧
      (∀ j < k, linUpdate P y X npInv (v j) = .ok (some (v (j + 1)))) ∧
      (∀ j, j + 1 < k → 0.002 < Real.sqrt (∑ i, (v (j + 1) i - v j i) ^ 2)) ∧
      (k = 100 ∨ Real.sqrt (∑ i, (v k i - v (k - 1) i) ^ 2) ≤ 0.002) := by
  unfold linFit at h
  cases hl : linearLoop (linStep P y X) 100 101 (some w0) true 0 with
  | none => simp [hl] at h
  | some r =>
    cases r with
    | error e => simp [hl, Except.map] at h
    | ok r =>
      obtain ⟨w', k'⟩ := r
      simp only [hl, Except.map, Except.ok.injEq] at h
      subst h
      obtain ⟨k, v, h1, h2, h3, h4, h5, h6, h7, h8⟩ := linearLoop_trace P y X w 100 101 w0 0 k' (by omega) hl
      obtain rfl : k' = k := by omega
      exact ⟨k', v, h1, h3, h4, h5, h6, h7, h8⟩

/-- Instance: a fit that returns weights (`C68_fit_reverses_false` gives one for every start). -/
example (P : ProbitSet) (hs : 0 < P.sigma) (w0 : Fin 2 → ℝ) :
    ∃ w, linFit P ⟨some [⟨-1, 0, 1⟩], none, none⟩ (!![1, 0; 0, 1] : Matrix (Fin 2) (Fin 2) ℝ) w0 = .ok (some w) := by
  obtain ⟨w, h, -⟩ := C68_fit_reverses_false P hs ⟨-1, 0, 1⟩ (by decide) (!![1, 0; 0, 1] : Matrix (Fin 2) (Fin 2) ℝ)
    le_rfl (fun h => by have := congrFun h 0; simp at this) w0
  exact ⟨w, h⟩

/-- Two different points with two features. -/
example : (!![1, 0; 0, 1] : Matrix (Fin 2) (Fin 2) ℝ) (0 : Fin 2) ≠ !![1, 0; 0, 1] (1 : Fin 2) := by
  intro h
  have := congrFun h 0
  simp at this

end C68

end Lop.Props
