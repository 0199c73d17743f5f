import Verif.Spec.ModeLearned
import Verif.Props.FindMode

/-! # Helper lemmas: the posterior mode as a fixed point -/

namespace Lop

open Lop.Spec Lop.Props Matrix

variable {n t : Nat}

/-- Gradient of the log-likelihood of comparisons, whatever the range. -/
noncomputable def pairGradV (sigma : ℝ) (y : List (IPair n)) (F : Fin n → ℝ) : Fin n → ℝ := fun i =>
  (y.map fun p => pairPull sigma F p * p.dk * ((if i = p.v then 1 else 0) - (if i = p.u then 1 else 0))).sum

theorem isGradientAt_pairTerm (sigma : ℝ) (p : IPair n) (F : Fin n → ℝ) :
    IsGradientAt (fun G => Real.log (Phi (pairZ sigma G p)))
      (fun i => pairPull sigma F p * p.dk * ((if i = p.v then 1 else 0) - (if i = p.u then 1 else 0))) F := by
  have hz : HasFDerivAt (fun G : Fin n → ℝ => pairZ sigma G p)
      (((p.dk : ℝ) / (Real.sqrt 2 * sigma)) • ((ContinuousLinearMap.proj p.v : (Fin n → ℝ) →L[ℝ] ℝ) -
        ContinuousLinearMap.proj p.u)) F := by
    have h1 : HasFDerivAt (fun G : Fin n → ℝ => G p.v - G p.u)
        ((ContinuousLinearMap.proj p.v : (Fin n → ℝ) →L[ℝ] ℝ) - ContinuousLinearMap.proj p.u) F :=
      (ContinuousLinearMap.proj p.v : (Fin n → ℝ) →L[ℝ] ℝ).hasFDerivAt.sub
        (ContinuousLinearMap.proj p.u : (Fin n → ℝ) →L[ℝ] ℝ).hasFDerivAt
    have h2 := h1.const_mul ((p.dk : ℝ) / (Real.sqrt 2 * sigma))
    refine h2.congr_of_eventuallyEq (Filter.Eventually.of_forall fun G => ?_)
    simp only [pairZ]
    ring
  have hl : HasDerivAt (fun z => Real.log (Phi z)) (phi (pairZ sigma F p) / Phi (pairZ sigma F p))
      (pairZ sigma F p) := (hasDerivAt_Phi _).log (Phi_pos _).ne'
  have := hl.comp_hasFDerivAt F hz
  refine this.congr_fderiv ?_
  ext G
  simp only [_root_.smul_apply, _root_.sub_apply, ContinuousLinearMap.proj_apply,
    smul_eq_mul, _root_.sum_apply, pairPull, mul_sub, sub_mul, Finset.sum_sub_distrib, mul_ite, mul_one,
    mul_zero, ite_mul, zero_mul, Finset.sum_ite_eq', Finset.mem_univ, if_true]
  ring

theorem isGradientAt_pairLogLik (sigma : ℝ) (y : List (IPair n)) (F : Fin n → ℝ) :
    IsGradientAt (pairLogLik sigma y) (pairGradV sigma y F) F := by
  induction y with
  | nil =>
    have e : pairLogLik sigma ([] : List (IPair n)) = fun _ => 0 := by funext G; simp [pairLogLik]
    have e' : pairGradV sigma [] F = 0 := by funext i; simp [pairGradV]
    rw [e, e']
    exact isGradientAt_const 0 F
  | cons p y ih =>
    have e : pairLogLik sigma (p :: y) = fun G => Real.log (Phi (pairZ sigma G p)) + pairLogLik sigma y G := by
      funext G; simp [pairLogLik]
    have e' : pairGradV sigma (p :: y) F = (fun i => pairPull sigma F p * p.dk *
        ((if i = p.v then 1 else 0) - (if i = p.u then 1 else 0))) + pairGradV sigma y F := by
      funext i; simp [pairGradV]
    rw [e, e']
    exact (isGradientAt_pairTerm sigma p F).add' ih

theorem isMode_iff {sigma : ℝ} {y : List (IPair n)} {K : Matrix (Fin n) (Fin n) ℝ} (hK : K.PosDef)
    {m : Fin n → ℝ} : IsMode sigma y K m ↔ ∀ G, pairLogLik sigma y G - 1 / 2 * (G ⬝ᵥ (K⁻¹ *ᵥ G)) ≤
      pairLogLik sigma y m - 1 / 2 * (m ⬝ᵥ (K⁻¹ *ᵥ m)) := by
  unfold IsMode
  rw [logPosterior_eq hK]
  refine forall_congr' fun G => ?_
  constructor <;> intro h <;> simp only at h ⊢ <;> linarith

/-- The mode is the fixed point of "prior covariance times gradient of the log-likelihood". -/
theorem isMode_iff_fixed {sigma : ℝ} {y : List (IPair n)} {K : Matrix (Fin n) (Fin n) ℝ} (hK : K.PosDef)
    {m : Fin n → ℝ} : IsMode sigma y K m ↔ m = K *ᵥ pairGradV sigma y m := by
  have hu : IsUnit K.det := (Matrix.isUnit_iff_isUnit_det _).1 hK.isUnit
  have hs : (K⁻¹)ᵀ = K⁻¹ := inv_symm hK
  rw [isMode_iff hK]
  have hfix : m = K *ᵥ pairGradV sigma y m ↔ pairGradV sigma y m - K⁻¹ *ᵥ m = 0 := by
    rw [sub_eq_zero]
    constructor
    · intro h
      conv_rhs => rw [h]
      rw [mulVec_mulVec, nonsing_inv_mul _ hu, one_mulVec]
    · intro h
      rw [h, mulVec_mulVec, mul_nonsing_inv _ hu, one_mulVec]
  rw [hfix]
  constructor
  · intro h
    have hg := (isGradientAt_pairLogLik sigma y m).add' (isGradientAt_quadratic hs m)
    have hloc : IsLocalMax (fun x => pairLogLik sigma y x + -(1 / 2 * (x ⬝ᵥ (K⁻¹ *ᵥ x)))) m :=
      Filter.Eventually.of_forall fun G => by have := h G; simp only; linarith
    have h0 := hloc.hasFDerivAt_eq_zero hg
    funext i
    have := congrArg (fun (L : (Fin n → ℝ) →L[ℝ] ℝ) => L (Pi.single i 1)) h0
    simp [Pi.single_apply] at this
    simp only [Pi.sub_apply, Pi.zero_apply]
    linarith
  · intro h G
    have h1 := concave_tangent (C37_concave sigma y) (isGradientAt_pairLogLik sigma y m) G
    have h2 := quadratic_expand hs m G
    have h3 := hK.inv.posSemidef.dotProduct_mulVec_nonneg (G - m)
    simp only [star_trivial] at h3
    have h4 : (pairGradV sigma y m - K⁻¹ *ᵥ m) ⬝ᵥ (G - m) = 0 := by rw [h, zero_dotProduct]
    rw [sub_dotProduct] at h4
    rw [neg_dotProduct] at h2
    linarith

/-- A row times the gradient. -/
theorem dot_pairGradV (sigma : ℝ) (y : List (IPair n)) (F a : Fin n → ℝ) :
    a ⬝ᵥ pairGradV sigma y F = (y.map fun p => pairPull sigma F p * p.dk * (a p.v - a p.u)).sum := by
  induction y with
  | nil => simp [pairGradV, dotProduct]
  | cons p y ih =>
    have e : pairGradV sigma (p :: y) F = (fun i => pairPull sigma F p * p.dk *
        ((if i = p.v then 1 else 0) - (if i = p.u then 1 else 0))) + pairGradV sigma y F := by
      funext i
      simp [pairGradV]
    rw [e, dotProduct_add, ih, List.map_cons, List.sum_cons]
    congr 1
    simp only [dotProduct, mul_sub, Finset.sum_sub_distrib, mul_ite, mul_one, mul_zero, Finset.sum_ite_eq',
      Finset.mem_univ, if_true]
    ring

theorem pairPull_pos {sigma : ℝ} (hs : 0 < sigma) (F : Fin n → ℝ) (p : IPair n) : 0 < pairPull sigma F p := by
  unfold pairPull
  have : 0 < phi (pairZ sigma F p) := by unfold phi; positivity
  have := Phi_pos (pairZ sigma F p)
  have : 0 < Real.sqrt 2 * sigma := by positivity
  positivity

theorem isMode_unique {sigma : ℝ} {y : List (IPair n)} {K : Matrix (Fin n) (Fin n) ℝ} (hK : K.PosDef)
    {m m' : Fin n → ℝ} (h : IsMode sigma y K m) (h' : IsMode sigma y K m') : m = m' := by
  obtain ⟨q, -, hq, -⟩ := C97_mode_unique sigma y hK
  rw [hq m h, hq m' h']

theorem pairZ_pos_iff {sigma : ℝ} (hs : 0 < sigma) (F : Fin n → ℝ) (p : IPair n) :
    0 < pairZ sigma F p ↔ Agrees F p := by
  have : 0 < Real.sqrt 2 * sigma := by positivity
  unfold pairZ Agrees
  rw [lt_div_iff₀ this, zero_mul]

/-- Variance of the difference of two points under the prior. -/
theorem var_diff_pos {K : Matrix (Fin n) (Fin n) ℝ} (hK : K.PosDef) {u v : Fin n} (h : u ≠ v) :
    0 < K v v - K v u - (K u v - K u u) := by
  have hne : (Pi.single v 1 - Pi.single u 1 : Fin n → ℝ) ≠ 0 := by
    intro hc
    have := congrFun hc v
    simp [Pi.single_apply, Ne.symm h] at this
  have := hK.dotProduct_mulVec_pos hne
  simp only [star_trivial, mulVec_sub, sub_dotProduct, dotProduct_sub, mulVec_single, single_dotProduct,
    MulOpposite.op_one, one_smul, col_apply, one_mul] at this
  linarith

theorem mratio_antitone : Antitone mratio := by
  refine antitone_of_deriv_nonpos (fun x => (hasDerivAt_mratio x).differentiableAt) fun x => ?_
  rw [(hasDerivAt_mratio x).deriv]
  linarith [mcurv_pos x]

end Lop
