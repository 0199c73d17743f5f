import Verif.Proofs.FindMode
import Mathlib.Analysis.SpecialFunctions.Sqrt
import Mathlib.Analysis.Calculus.Deriv.Inv
import Mathlib.Tactic.FieldSimp

/-! Sampford's inequality: the curvature of `log Φ` decreases; the information of repeated comparisons. -/

namespace Lop

open Spec

private theorem samp_key (z : ℝ) :
    0 < Real.sqrt (z ^ 2 + 8) * (2 + z ^ 2) + z ^ 3 + 6 * z := by
  have hs : Real.sqrt (z ^ 2 + 8) ^ 2 = z ^ 2 + 8 := Real.sq_sqrt (by positivity)
  have hp : 0 < Real.sqrt (z ^ 2 + 8) * (2 + z ^ 2) := by positivity
  by_contra hc
  push Not at hc
  have h1 : Real.sqrt (z ^ 2 + 8) * (2 + z ^ 2) ≤ -(z ^ 3 + 6 * z) := by linarith
  have h2 := mul_le_mul h1 h1 hp.le (by linarith)
  have h3 : Real.sqrt (z ^ 2 + 8) * (2 + z ^ 2) * (Real.sqrt (z ^ 2 + 8) * (2 + z ^ 2)) =
      (z ^ 2 + 8) * (2 + z ^ 2) ^ 2 := by
    linear_combination (2 + z ^ 2) ^ 2 * hs
  rw [h3] at h2
  nlinarith

private theorem samp_den {z : ℝ} (hz : z < 1) : 0 < Real.sqrt (z ^ 2 + 8) - 3 * z := by
  rcases le_or_gt z 0 with h | h
  · have : 0 < Real.sqrt (z ^ 2 + 8) := by positivity
    linarith
  · have : 3 * z < Real.sqrt (z ^ 2 + 8) := Real.lt_sqrt_of_sq_lt (by nlinarith)
    linarith

private noncomputable def sampG (z : ℝ) : ℝ := phi z * (4 / (Real.sqrt (z ^ 2 + 8) - 3 * z)) - Phi z

private theorem sampG_deriv {z : ℝ} (hz : z < 1) : ∃ d, HasDerivAt sampG d z ∧ 0 < d := by
  have hsp : 0 < Real.sqrt (z ^ 2 + 8) := by positivity
  have hD := samp_den hz
  have h0 : HasDerivAt (fun x : ℝ => x ^ 2 + 8) (2 * z) z := by
    simpa using ((hasDerivAt_id z).pow 2).add_const 8
  have h1 : HasDerivAt (fun x : ℝ => Real.sqrt (x ^ 2 + 8) - 3 * x)
      (2 * z / (2 * Real.sqrt (z ^ 2 + 8)) - 3) z := by
    have := (h0.sqrt (by positivity)).sub ((hasDerivAt_id z).const_mul 3)
    exact this.congr_deriv (by simp)
  have h2 := (hasDerivAt_const z (4 : ℝ)).div h1 hD.ne'
  have h3 := ((hasDerivAt_phi z).mul h2).sub (hasDerivAt_Phi z)
  refine ⟨_, h3, ?_⟩
  have hk := samp_key z
  have hs : Real.sqrt (z ^ 2 + 8) ^ 2 = z ^ 2 + 8 := Real.sq_sqrt (by positivity)
  simp only [Pi.div_apply]
  set s := Real.sqrt (z ^ 2 + 8) with hsd
  obtain ⟨D, hDs⟩ : ∃ D, D = s - 3 * z := ⟨_, rfl⟩
  rw [← hDs] at hD ⊢
  have e' : -z * (4 / D) + (0 * D - 4 * (2 * z / (2 * s) - 3)) / D ^ 2 - 1 =
      2 * (s * (2 + z ^ 2) + z ^ 3 + 6 * z) / (s * D ^ 2) := by
    have := hD.ne'
    field_simp
    subst hDs
    linear_combination (2 * z - s) * hs
  have e : -z * phi z * (4 / D) + phi z * ((0 * D - 4 * (2 * z / (2 * s) - 3)) / D ^ 2) - phi z =
      phi z * (2 * (s * (2 + z ^ 2) + z ^ 3 + 6 * z) / (s * D ^ 2)) := by
    rw [← e']
    ring
  rw [e]
  have := phi_pos z
  positivity

private theorem sampG_pos {z : ℝ} (hz : z < 1) : 0 < sampG z := by
  have hmono : StrictMonoOn sampG (Set.Iio 1) := by
    refine strictMonoOn_of_deriv_pos (convex_Iio 1) (fun x hx => ?_) fun x hx => ?_
    · obtain ⟨d, h, -⟩ := sampG_deriv hx
      exact h.continuousAt.continuousWithinAt
    · rw [interior_Iio] at hx
      obtain ⟨d, h, hd⟩ := sampG_deriv hx
      rw [h.deriv]
      exact hd
  have hlow : ∀ y < 0, -(1 / -y) ≤ sampG y := by
    intro y hy
    have h1 : 0 ≤ phi y * (4 / (Real.sqrt (y ^ 2 + 8) - 3 * y)) :=
      mul_nonneg (phi_pos y).le (div_nonneg (by norm_num) (samp_den (by linarith)).le)
    have h2 : Phi y ≤ 1 / -y := by
      rw [le_div_iff₀ (by linarith)]
      linarith [mills y, phi_lt_one y]
    rw [sampG]
    linarith
  have hnn : 0 ≤ sampG (z - 1) := by
    by_contra hc
    push Not at hc
    set w := min (z - 2) (min (-1) (2 / sampG (z - 1))) with hw
    have hw1 : w ≤ z - 2 := min_le_left _ _
    have hw2 : w ≤ -1 := (min_le_right _ _).trans (min_le_left _ _)
    have hw3 : w ≤ 2 / sampG (z - 1) := (min_le_right _ _).trans (min_le_right _ _)
    have h1 := hlow w (by linarith)
    have h2 := hmono (show w ∈ Set.Iio 1 by simp; linarith) (show z - 1 ∈ Set.Iio 1 by simp; linarith)
      (show w < z - 1 by linarith)
    have h3 : 1 / -w < -sampG (z - 1) := by
      rw [div_lt_iff₀ (by linarith)]
      have := mul_le_mul_of_nonpos_left hw3 hc.le
      rw [mul_div_cancel₀ _ hc.ne] at this
      linarith
    linarith
  exact hnn.trans_lt (hmono (show z - 1 ∈ Set.Iio 1 by simp; linarith) (show z ∈ Set.Iio 1 from hz) (by linarith))

/-- Sampford's inequality. -/
theorem sampford (z : ℝ) : 0 < (z ^ 2 - 1) + 3 * z * mratio z + 2 * mratio z ^ 2 := by
  have hr := mratio_pos z
  rcases le_or_gt 1 z with hz | hz
  · have : 0 ≤ z ^ 2 - 1 := by nlinarith
    positivity
  · have hG := sampG_pos hz
    have hD := samp_den hz
    have hp := phi_pos z
    have hP := Phi_pos z
    have hs : Real.sqrt (z ^ 2 + 8) ^ 2 = z ^ 2 + 8 := Real.sq_sqrt (by positivity)
    have hsp : 0 < Real.sqrt (z ^ 2 + 8) := by positivity
    rw [sampG] at hG
    have h1 : Phi z * (Real.sqrt (z ^ 2 + 8) - 3 * z) < 4 * phi z := by
      have : Phi z < 4 * phi z / (Real.sqrt (z ^ 2 + 8) - 3 * z) := by
        have e : phi z * (4 / (Real.sqrt (z ^ 2 + 8) - 3 * z)) = 4 * phi z / (Real.sqrt (z ^ 2 + 8) - 3 * z) := by ring
        linarith
      rwa [lt_div_iff₀ hD] at this
    have h2 : Real.sqrt (z ^ 2 + 8) < 4 * mratio z + 3 * z := by
      have : Real.sqrt (z ^ 2 + 8) - 3 * z < 4 * phi z / Phi z := by
        rw [lt_div_iff₀ hP]
        linarith
      rw [mratio]
      have e : 4 * (phi z / Phi z) = 4 * phi z / Phi z := by ring
      linarith
    have h3 := mul_lt_mul h2 h2.le hsp (by linarith)
    nlinarith

theorem mthird_neg (z : ℝ) : mthird z < 0 := by
  have h := mul_pos (mratio_pos z) (sampford z)
  rw [mthird]
  nlinarith

theorem mcurv_strictAnti : StrictAnti mcurv := by
  refine strictAnti_of_deriv_neg fun z => ?_
  rw [(hasDerivAt_mcurv z).deriv]
  exact mthird_neg z

theorem mcurv_lt_one (z : ℝ) : mcurv z < 1 :=
  lt_of_lt_of_le (mcurv_strictAnti (show z - 1 < z by linarith)) (mcurv_le_one _)

theorem mratio_strictAnti : StrictAnti mratio := by
  refine strictAnti_of_deriv_neg fun z => ?_
  rw [(hasDerivAt_mratio z).deriv]
  linarith [mcurv_pos z]

theorem id_add_mratio_strictMono : StrictMono fun z => z + mratio z := by
  refine strictMono_of_deriv_pos fun z => ?_
  have h : HasDerivAt (fun z => z + mratio z) (1 + -mcurv z) z := (hasDerivAt_id z).add (hasDerivAt_mratio z)
  rw [h.deriv]
  linarith [mcurv_lt_one z]

theorem id_add_mratio_pos (z : ℝ) : 0 < z + mratio z := by
  have h := mcurv_pos z
  rw [mcurv, ← add_mul] at h
  exact pos_of_mul_pos_left h (mratio_pos z).le

/-- Information of `a` answers for and `b` answers against, at the standardised difference `z`. -/
noncomputable def answersInfo (a b z : ℝ) : ℝ := a * mcurv z + b * mcurv (-z)

theorem answersInfo_more {c a b z z' : ℝ} (hc : 0 < c) (ha : 0 ≤ a) (hb : 0 ≤ b)
    (h : z = c * (a * mratio z - b * mratio (-z))) (h' : z' = c * ((a + 1) * mratio z' - b * mratio (-z'))) :
    answersInfo a b z < answersInfo (a + 1) b z' := by
  have hlt : z < z' := by
    by_contra hcon
    push Not at hcon
    have h1 := mul_le_mul_of_nonneg_left (mratio_strictAnti.antitone hcon) ha
    have h2 := mul_le_mul_of_nonneg_left (mratio_strictAnti.antitone (neg_le_neg hcon)) hb
    have h3 := mratio_pos z'
    have : c * (a * mratio z - b * mratio (-z)) < c * ((a + 1) * mratio z' - b * mratio (-z')) :=
      mul_lt_mul_of_pos_left (by linarith) hc
    linarith
  have e : ∀ x A : ℝ, x = c * (A * mratio x - b * mratio (-x)) →
      A * mcurv x = (x / c + b * mratio (-x)) * (x + mratio x) := by
    intro x A hx
    have : x / c = A * mratio x - b * mratio (-x) := by
      rw [div_eq_iff hc.ne']
      linarith
    rw [this, mcurv]
    ring
  have hA : 0 ≤ z / c + b * mratio (-z) := by
    have : z / c + b * mratio (-z) = a * mratio z := by
      rw [show z / c = a * mratio z - b * mratio (-z) by rw [div_eq_iff hc.ne']; linarith]
      ring
    rw [this]
    exact mul_nonneg ha (mratio_pos z).le
  have hA' : z / c + b * mratio (-z) < z' / c + b * mratio (-z') := by
    have h1 := mul_le_mul_of_nonneg_left (mratio_strictAnti.antitone (neg_le_neg hlt.le)) hb
    have h2 : z / c < z' / c := div_lt_div_of_pos_right hlt hc
    linarith
  have hB := id_add_mratio_strictMono hlt
  have h1 := mul_lt_mul'' hA' hB hA (id_add_mratio_pos z).le
  have h2 := mul_le_mul_of_nonneg_left (mcurv_strictAnti.antitone (neg_le_neg hlt.le)) hb
  rw [answersInfo, answersInfo, e z a h, e z' (a + 1) h']
  linarith

theorem answersInfo_swap (a b z : ℝ) : answersInfo a b z = answersInfo b a (-z) := by
  rw [answersInfo, answersInfo, neg_neg, add_comm]

/-- Enough answers give much information. -/
theorem answersInfo_large {c a b z T : ℝ} (hc : 0 < c) (hT : 0 ≤ T) (ha : 0 ≤ a) (hb : 0 ≤ b)
    (h : z = c * (a * mratio z - b * mratio (-z))) :
    min ((a + b) * mcurv T) (T ^ 2 / c) ≤ answersInfo a b z := by
  have key : ∀ {a b z : ℝ}, 0 ≤ a → 0 ≤ b → z = c * (a * mratio z - b * mratio (-z)) → T < z →
      T ^ 2 / c ≤ answersInfo a b z := by
    intro a b z ha hb h hz
    have e : a * mcurv z = (z / c + b * mratio (-z)) * (z + mratio z) := by
      have : z / c = a * mratio z - b * mratio (-z) := by
        rw [div_eq_iff hc.ne']
        linarith
      rw [this, mcurv]
      ring
    have h1 : 0 ≤ b * mratio (-z) := mul_nonneg hb (mratio_pos _).le
    have h2 : 0 ≤ b * mcurv (-z) := mul_nonneg hb (mcurv_pos _).le
    have h3 : T / c ≤ z / c + b * mratio (-z) := by
      have := div_lt_div_of_pos_right hz hc
      linarith
    have h4 := mul_le_mul h3 (show T ≤ z + mratio z by linarith [mratio_pos z]) hT
      ((div_nonneg hT hc.le).trans h3)
    rw [answersInfo, e]
    calc T ^ 2 / c = T / c * T := by ring
      _ ≤ _ := by linarith
  rcases lt_or_ge T z with hz | hz
  · exact (min_le_right _ _).trans (key ha hb h hz)
  rcases lt_or_ge T (-z) with hz' | hz'
  · rw [answersInfo_swap]
    refine (min_le_right _ _).trans (key hb ha ?_ hz')
    rw [neg_neg]
    linarith
  · have h1 := mul_le_mul_of_nonneg_left (mcurv_strictAnti.antitone hz) ha
    have h2 := mul_le_mul_of_nonneg_left (mcurv_strictAnti.antitone hz') hb
    refine (min_le_left _ _).trans ?_
    rw [answersInfo, add_mul]
    linarith

end Lop
