import Verif.Proofs.AgainCov
import Verif.Proofs.RatingModes
import Mathlib.Analysis.Calculus.Deriv.Slope

/-! # Helper lemmas: two comparisons of different pairs -/

namespace Lop

open Lop.Spec Lop.Props Matrix

variable {n : Nat}

theorem mratio_lt_one {z : ℝ} (hz : 0 ≤ z) : mratio z < 1 := by
  have h0 : mratio 0 < 1 := by
    rw [mratio, Phi_zero]
    have := phi_zero_bounds.2
    linarith
  exact (mratio_strictAnti.antitone hz).trans_lt h0

/-- `vᵀ (P⁻¹ + G)⁻¹ v` for `G = [[g, al], [al, g]]`, `P = diag(l1, l2)`, `v = (ka, al)`. -/
noncomputable def twoGain (g ka al l1 l2 : ℝ) : ℝ :=
  (ka ^ 2 * (l1 * (1 + g * l2)) - 2 * ka * al * (al * l1 * l2) + al ^ 2 * (l2 * (1 + g * l1))) /
    ((1 + g * l1) * (1 + g * l2) - al ^ 2 * l1 * l2)

theorem twoDet_pos {g al l1 l2 : ℝ} (hg : 0 < g) (hal : 0 < al) (hlg : al ≤ g) (b1 : 0 < l1) (b2 : 0 < l2) :
    0 < (1 + g * l1) * (1 + g * l2) - al ^ 2 * l1 * l2 := by
  have h1 : 0 ≤ g ^ 2 - al ^ 2 := sub_nonneg.2 (by gcongr)
  have e : (1 + g * l1) * (1 + g * l2) - al ^ 2 * l1 * l2 = 1 + g * l1 + g * l2 + (g ^ 2 - al ^ 2) * l1 * l2 := by ring
  rw [e]
  positivity

theorem twoGain_alg {g ka al l0 l1 l2 : ℝ} (hg : 0 < g) (hka : 0 < ka) (hal : 0 < al) (hlg : al ≤ g)
    (b0 : 0 < l0) (b1 : 0 < l1) (b2 : 0 < l2) (c0 : l0 ≤ 1) (c1 : l1 ≤ 1) (c2 : l2 ≤ 1)
    (h : al ^ 2 * ((1 + g) ^ 2 + ka ^ 2) < ka ^ 2 * (l0 - l1)) :
    twoGain g ka al l1 l2 < ka ^ 2 * l0 / (1 + g * l0) := by
  rw [twoGain, div_lt_div_iff₀ (twoDet_pos hg hal hlg b1 b2) (by positivity)]
  have k1 : ka ^ 2 * (l0 - l1) ≤ (1 + g * l2) * (ka ^ 2 * (l0 - l1)) := by
    have h0 : 0 ≤ ka ^ 2 * (l0 - l1) := le_trans (by positivity) h.le
    exact le_mul_of_one_le_left h0 (by linarith [mul_pos hg b2])
  have k2 : al ^ 2 * (l2 * (1 + g * l1) * (1 + g * l0)) + ka ^ 2 * al ^ 2 * (l0 * l1 * l2) ≤
      al ^ 2 * ((1 + g) ^ 2 + ka ^ 2) := by
    have d1 : l2 * (1 + g * l1) * (1 + g * l0) ≤ 1 * (1 + g * 1) * (1 + g * 1) := by gcongr
    have d2 : l0 * l1 * l2 ≤ 1 * 1 * 1 := by gcongr
    have d3 := mul_le_mul_of_nonneg_left d1 (sq_nonneg al)
    have d4 := mul_le_mul_of_nonneg_left d2 (mul_nonneg (sq_nonneg ka) (sq_nonneg al))
    linarith
  have k5 : 0 ≤ 2 * ka * al * (al * l1 * l2) * (1 + g * l0) := by positivity
  linarith

theorem twoGain_lt {g ka z0 : ℝ} (hg : 0 < g) (hka : 0 < ka) (h0 : z0 = g / 2 * mratio z0) :
    ∃ A, 0 < A ∧ ∀ al, 0 < al → al < A → al ≤ g ∧ ∀ z1 z2, z1 = (g * mratio z1 + al * mratio z2) / 2 →
      z2 = (al * mratio z1 + g * mratio z2) / 2 →
      twoGain g ka al (mcurv z1 / 2) (mcurv z2 / 2) <
        ka ^ 2 * (mcurv z0 / 2) / (1 + g * (mcurv z0 / 2)) := by
  set w := -mthird z0 / 2 with hw
  have hw0 : 0 < w := by have := mthird_neg z0; rw [hw]; linarith
  set T := (1 + g) / 2 with hT
  have hrho := mratio_pos T
  set s := mratio T / (2 + g) with hs
  have hs0 : 0 < s := by positivity
  -- the curvature falls at a positive rate
  obtain ⟨e, he, hslope⟩ : ∃ e, 0 < e ∧ ∀ h, 0 < h → h < e → mcurv (z0 + h) ≤ mcurv z0 - w * h := by
    have h1 := hasDerivAt_iff_tendsto_slope.1 (hasDerivAt_mcurv z0)
    have h2 := h1.eventually (gt_mem_nhds (show mthird z0 < -w by rw [hw]; linarith [mthird_neg z0]))
    rw [eventually_nhdsWithin_iff, Metric.eventually_nhds_iff] at h2
    obtain ⟨e, he, h2⟩ := h2
    refine ⟨e, he, fun h hh hhe => ?_⟩
    have h3 := h2 (y := z0 + h) (by simp [abs_of_pos hh, hhe]) (by simp [hh.ne'])
    rw [slope_def_field, add_sub_cancel_left, div_lt_iff₀ hh] at h3
    linarith
  set C := 2 * ((1 + g) ^ 2 + ka ^ 2) with hC
  have hC0 : 0 < C := by positivity
  refine ⟨min (min 1 g) (min (e / s) (ka ^ 2 * s * w / C)), by positivity, fun al hal hlt => ?_⟩
  have hl1 : al < 1 := hlt.trans_le ((min_le_left _ _).trans (min_le_left _ _))
  have hlg : al < g := hlt.trans_le ((min_le_left _ _).trans (min_le_right _ _))
  have hle : al < e / s := hlt.trans_le ((min_le_right _ _).trans (min_le_left _ _))
  have hlC : al < ka ^ 2 * s * w / C := hlt.trans_le ((min_le_right _ _).trans (min_le_right _ _))
  refine ⟨hlg.le, fun z1 z2 h1 h2 => ?_⟩
  have r1 := mratio_pos z1
  have r2 := mratio_pos z2
  have hz1 : 0 < z1 := by rw [h1]; positivity
  have hz2 : 0 < z2 := by rw [h2]; positivity
  have hz2T : z2 ≤ T := by
    have a1 := mul_le_mul_of_nonneg_left (mratio_lt_one hz1.le).le hal.le
    have a2 := mul_le_mul_of_nonneg_left (mratio_lt_one hz2.le).le hg.le
    rw [hT]
    linarith
  have hr2 : mratio T ≤ mratio z2 := mratio_strictAnti.antitone hz2T
  have hz01 : z0 < z1 := by
    by_contra hc
    push Not at hc
    have a1 := mul_le_mul_of_nonneg_left (mratio_strictAnti.antitone hc) hg.le
    have a2 := mul_pos hal r2
    linarith
  have hshift : z0 + al * s ≤ z1 := by
    have a1 := id_add_mratio_strictMono hz01
    have a2 : mratio z0 - mratio z1 ≤ z1 - z0 := by simp only at a1; linarith
    have a3 := mul_le_mul_of_nonneg_left a2 hg.le
    have a4 := mul_le_mul_of_nonneg_left hr2 hal.le
    have a5 : al * s = al * mratio T / (2 + g) := by rw [hs]; ring
    rw [a5, ← le_sub_iff_add_le', div_le_iff₀ (by positivity)]
    nlinarith
  have hcurv : mcurv z1 ≤ mcurv z0 - w * (al * s) := by
    refine (mcurv_strictAnti.antitone hshift).trans (hslope _ (by positivity) ?_)
    rwa [lt_div_iff₀ hs0] at hle
  have p0 := mcurv_pos z0
  have p1 := mcurv_pos z1
  have p2 := mcurv_pos z2
  have q0 := mcurv_lt_one z0
  have q1 := mcurv_lt_one z1
  have q2 := mcurv_lt_one z2
  obtain ⟨l0, hl0⟩ : ∃ l, l = mcurv z0 / 2 := ⟨_, rfl⟩
  obtain ⟨l1, hl1d⟩ : ∃ l, l = mcurv z1 / 2 := ⟨_, rfl⟩
  obtain ⟨l2, hl2d⟩ : ∃ l, l = mcurv z2 / 2 := ⟨_, rfl⟩
  rw [← hl0, ← hl1d, ← hl2d]
  have b0 : 0 < l0 := by linarith
  have b1 : 0 < l1 := by linarith
  have b2 : 0 < l2 := by linarith
  have c0 : l0 ≤ 1 := by linarith
  have c1 : l1 ≤ 1 := by linarith
  have c2 : l2 ≤ 1 := by linarith
  have hdiff : al * (s * w / 2) ≤ l0 - l1 := by
    rw [hl0, hl1d]
    linarith
  refine twoGain_alg hg hka hal hlg.le b0 b1 b2 c0 c1 c2 ?_
  have k3 : al ^ 2 * ((1 + g) ^ 2 + ka ^ 2) < ka ^ 2 * (al * (s * w / 2)) := by
    rw [lt_div_iff₀ hC0, hC] at hlC
    have := mul_lt_mul_of_pos_left hlC hal
    linarith
  exact k3.trans_le (mul_le_mul_of_nonneg_left hdiff (sq_nonneg ka))

/-- `(1 + W K)⁻¹ W` for two comparisons. -/
theorem two_reduction {K W : Matrix (Fin n) (Fin n) ℝ} (hu : IsUnit (1 + W * K).det) {a b : Fin n → ℝ}
    {l1 l2 g al : ℝ} (hW : W = l1 • vecMulVec a a + l2 • vecMulVec b b) (haa : a ⬝ᵥ (K *ᵥ a) = g)
    (hbb : b ⬝ᵥ (K *ᵥ b) = g) (hab : a ⬝ᵥ (K *ᵥ b) = al) (hba : b ⬝ᵥ (K *ᵥ a) = al)
    (hdet : (1 + g * l1) * (1 + g * l2) - al ^ 2 * l1 * l2 ≠ 0) :
    (1 + W * K)⁻¹ * W = ((1 + g * l1) * (1 + g * l2) - al ^ 2 * l1 * l2)⁻¹ •
      ((l1 * (1 + g * l2)) • vecMulVec a a - (al * l1 * l2) • vecMulVec a b - (al * l1 * l2) • vecMulVec b a +
        (l2 * (1 + g * l1)) • vecMulVec b b) := by
  set Dt := (1 + g * l1) * (1 + g * l2) - al ^ 2 * l1 * l2 with hDt
  set M := (l1 * (1 + g * l2)) • vecMulVec a a - (al * l1 * l2) • vecMulVec a b - (al * l1 * l2) • vecMulVec b a +
        (l2 * (1 + g * l1)) • vecMulVec b b with hM
  have hrel : ∀ x c e f : Fin n → ℝ, vecMulVec x c * K * vecMulVec e f = (c ⬝ᵥ (K *ᵥ e)) • vecMulVec x f := by
    intro x c e f
    rw [vecMulVec_mul, vecMulVec_mul_vecMulVec, ← dotProduct_mulVec]
    ext i j
    simp [vecMulVec_apply]
    try ring
  have key : (1 + W * K) * M = Dt • W := by
    rw [hM, hW]
    simp only [Matrix.add_mul, Matrix.mul_add, Matrix.mul_sub, Matrix.one_mul, Matrix.smul_mul, Matrix.mul_smul, hrel,
      haa, hbb, hab, hba, smul_smul, hDt]
    module
  have : (1 + W * K) * (Dt⁻¹ • M) = W := by
    rw [Matrix.mul_smul, key, smul_smul, inv_mul_cancel₀ hdet, one_smul]
  calc (1 + W * K)⁻¹ * W = (1 + W * K)⁻¹ * ((1 + W * K) * (Dt⁻¹ • M)) := by rw [this]
    _ = _ := by rw [← Matrix.mul_assoc, nonsing_inv_mul _ hu, Matrix.one_mul]

end Lop
