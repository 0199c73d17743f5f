import Verif.Proofs.AbsProbit
import Verif.Proofs.FindMode
import Mathlib.Analysis.Complex.ExponentialBounds
import Mathlib.Analysis.Real.Pi.Bounds

/-! # Size of the gradient of the beta log-likelihood with the default precision 80 and an extreme rating -/

namespace Lop

open Spec

theorem digamma_mono_pos {x y : ℝ} (hx : 0 < x) (h : x ≤ y) : digamma x ≤ digamma y := by
  refine monotoneOn_of_deriv_nonneg (convex_Ioi (0:ℝ)) ?_ ?_ ?_ hx (lt_of_lt_of_le hx h) h
  · exact fun z hz => (hasDerivAt_digamma hz).continuousAt.continuousWithinAt
  · rw [interior_Ioi]
    exact fun z hz => (hasDerivAt_digamma hz).differentiableAt.differentiableWithinAt
  · rw [interior_Ioi]
    exact fun z hz => by rw [(hasDerivAt_digamma hz).deriv]; exact trigamma_nonneg hz

/-- `digamma x ≤ log x ≤ digamma (x + 1)`. -/
theorem digamma_log {x : ℝ} (hx : 0 < x) : digamma x ≤ Real.log x ∧ Real.log x ≤ digamma (x + 1) := by
  obtain ⟨ξ, hξ, e⟩ := exists_hasDerivAt_eq_slope logGamma digamma (show x < x + 1 by linarith)
    (fun z hz => (hasDerivAt_logGamma (lt_of_lt_of_le hx hz.1)).continuousAt.continuousWithinAt)
    (fun z hz => hasDerivAt_logGamma (lt_trans hx hz.1))
  have hg : logGamma (x + 1) - logGamma x = Real.log x := by
    rw [logGamma, logGamma, Real.Gamma_add_one hx.ne', Real.log_mul hx.ne' (Real.Gamma_pos_of_pos hx).ne']
    ring
  rw [hg, add_sub_cancel_left, div_one] at e
  rw [← e]
  exact ⟨digamma_mono_pos hx hξ.1.le, digamma_mono_pos (lt_trans hx hξ.1) hξ.2.le⟩

theorem digamma_le_log {x : ℝ} (hx : 0 < x) : digamma x ≤ Real.log x := (digamma_log hx).1

theorem log_sub_le_digamma {x : ℝ} (hx : 0 < x) : Real.log x - 1 / x ≤ digamma x := by
  have h := (digamma_log hx).2
  rw [digamma_add_one hx] at h
  linarith

theorem digamma_lower {x : ℝ} (hx : 0 < x) : -1 - 1 / x ≤ digamma x := by
  have h := log_sub_le_digamma (show 0 < x + 1 by linarith)
  rw [digamma_add_one hx] at h
  have h1 : 0 ≤ Real.log (x + 1) := Real.log_nonneg (by linarith)
  have h2 : 1 / (x + 1) ≤ 1 := by rw [div_le_one (by linarith)]; linarith
  linarith

theorem digamma_upper {x : ℝ} (hx : 0 < x) : digamma x ≤ Real.log (x + 1) - 1 / x := by
  have h := digamma_le_log (show 0 < x + 1 by linarith)
  rw [digamma_add_one hx] at h
  linarith

/-- `log 999`, the log odds of the largest rating. -/
noncomputable def topOdds : ℝ := Real.log (999 / 1000) - Real.log (1 - 999 / 1000)

theorem topOdds_bounds : 6.9 < topOdds ∧ topOdds < 6.932 := by
  have e : topOdds = Real.log 999 := by
    rw [topOdds, ← Real.log_div (by norm_num) (by norm_num)]; norm_num
  have h1 := Real.log_two_gt_d9
  have h2 := Real.log_two_lt_d9
  have e10 : Real.log (1024 : ℝ) = 10 * Real.log 2 := by
    rw [show (1024:ℝ) = 2 ^ 10 by norm_num, Real.log_pow]; norm_num
  rw [e]
  constructor
  · have h3 := Real.log_le_sub_one_of_pos (show (0:ℝ) < 1024 / 999 by norm_num)
    rw [Real.log_div (by norm_num) (by norm_num), e10] at h3
    linarith
  · have h3 : Real.log 999 < Real.log 1024 := Real.log_lt_log (by norm_num) (by norm_num)
    linarith

/-- The gradient of the log-likelihood of the rating 0.999 divided by `v c`. -/
noncomputable def topG (z : ℝ) : ℝ := phi z * shT (999 / 1000) 80 z

theorem shT_top (z : ℝ) : shT (999 / 1000) 80 z = topOdds - digamma (80 * Phi z) + digamma (80 * Phi (-z)) := by
  rw [shT, absTmp, shA, shB, Phi_neg, topOdds, show (80:ℝ) - 80 * Phi z = 80 * (1 - Phi z) by ring]

theorem shT_bot (z : ℝ) : shT (1 / 1000) 80 z = -shT (999 / 1000) 80 (-z) := by
  rw [shT_top, neg_neg, shT, absTmp, shA, shB, Phi_neg, topOdds, show (80:ℝ) - 80 * Phi z = 80 * (1 - Phi z) by ring,
    show (1:ℝ) - 1 / 1000 = 999 / 1000 by norm_num, show (1:ℝ) - 999 / 1000 = 1 / 1000 by norm_num]
  ring

theorem phi_zero_bounds : 0.3989 < phi 0 ∧ phi 0 < 0.399 := by
  have h1 := Real.pi_gt_d6
  have h2 := Real.pi_lt_d6
  have e : phi 0 = 1 / Real.sqrt (2 * Real.pi) := by simp [phi]
  have hs : 0 < Real.sqrt (2 * Real.pi) := Real.sqrt_pos.2 (by linarith)
  rw [e]
  constructor
  · rw [lt_div_iff₀ hs, ← lt_div_iff₀' (by norm_num), Real.sqrt_lt' (by norm_num)]
    norm_num
    linarith
  · rw [div_lt_iff₀ hs, ← div_lt_iff₀' (by norm_num), Real.lt_sqrt (by norm_num)]
    norm_num
    linarith

theorem phi_eq_mul (z : ℝ) : phi z = phi 0 * Real.exp (-(z ^ 2) / 2) := by
  simp [phi]; ring

theorem phi_le_zero (z : ℝ) : phi z ≤ phi 0 := by
  rw [phi_eq_mul]
  have : Real.exp (-(z ^ 2) / 2) ≤ 1 := by rw [Real.exp_le_one_iff]; nlinarith [sq_nonneg z]
  nlinarith [phi_pos 0]

theorem topG_continuous : Continuous topG := by
  rw [continuous_iff_continuousAt]
  intro z
  have h := (hasDerivAt_shG (y := 999 / 1000) (k := 1) (w := 80) (hasDerivAt_id z) (by norm_num)).continuousAt
  have e : topG = fun s => shG (999 / 1000) 1 80 (id s) / 80 := by
    funext s; simp only [topG, shG, id]; ring
  rw [e]
  exact h.div_const 80

theorem topT_nonpos {z : ℝ} (hz : z ≤ 0) : topOdds ≤ shT (999 / 1000) 80 z := by
  have h := digamma_mono_pos (x := 80 * Phi z) (y := 80 * Phi (-z)) (mul_pos (by norm_num) (Phi_pos _))
    (by have := Phi_strictMono.monotone (show z ≤ -z by linarith); linarith)
  rw [shT_top]; linarith

theorem topT_nonneg {z : ℝ} (hz : 0 ≤ z) : shT (999 / 1000) 80 z ≤ topOdds := by
  have h := digamma_mono_pos (x := 80 * Phi (-z)) (y := 80 * Phi z) (mul_pos (by norm_num) (Phi_pos _))
    (by have := Phi_strictMono.monotone (show -z ≤ z by linarith); linarith)
  rw [shT_top]; linarith

theorem topG_pos {z : ℝ} (hz : z ≤ 0) : 0 < topG z :=
  mul_pos (phi_pos z) (lt_of_lt_of_le (by linarith [topOdds_bounds.1]) (topT_nonpos hz))

theorem topG_le {z : ℝ} (hz : 0 ≤ z) : topG z ≤ 2.766 := by
  have h1 := topT_nonneg hz
  have h2 := topOdds_bounds
  have h3 := phi_zero_bounds
  have h4 := phi_le_zero z
  have h5 := phi_pos z
  unfold topG
  calc phi z * shT (999 / 1000) 80 z ≤ phi z * topOdds := by gcongr
    _ ≤ 0.399 * 6.932 := by nlinarith
    _ ≤ _ := by norm_num

theorem topG_zero : topG 0 = phi 0 * topOdds := by
  rw [topG, shT_top, neg_zero]; ring

/-- Derivative bound: `Phi` grows at most at rate 0.399. -/
theorem Phi_le_linear {z : ℝ} (hz : 0 ≤ z) : Phi z ≤ 1 / 2 + 0.399 * z := by
  have h : AntitoneOn (fun x => Phi x - 0.399 * x) (Set.Ici 0) := by
    refine antitoneOn_of_deriv_nonpos (convex_Ici 0) ?_ ?_ ?_
    · exact (continuous_Phi.sub (by fun_prop)).continuousOn
    · exact fun x _ => ((hasDerivAt_Phi x).sub ((hasDerivAt_id x).const_mul 0.399)).differentiableAt.differentiableWithinAt
    · intro x _
      have := ((hasDerivAt_Phi x).sub ((hasDerivAt_id x).const_mul 0.399)).deriv
      have e : deriv (fun x => Phi x - 0.399 * x) x = phi x - 0.399 * 1 := this
      rw [e]
      linarith [phi_le_zero x, phi_zero_bounds.2]
  have := h (Set.mem_Ici.2 le_rfl) (Set.mem_Ici.2 hz) hz
  simp only [Phi_zero] at this
  linarith

theorem topG_ge {z : ℝ} (h0 : 0 ≤ z) (h1 : z ≤ 0.15) : 2.55 ≤ topG z ∧ 6.59 ≤ shT (999 / 1000) 80 z := by
  have hP := Phi_le_linear h0
  have hP' : 1 / 2 ≤ Phi z := by rw [← Phi_zero]; exact Phi_strictMono.monotone h0
  have hPn : Phi (-z) = 1 - Phi z := Phi_neg z
  have ha := digamma_le_log (x := 80 * Phi z) (by linarith)
  have hb := log_sub_le_digamma (x := 80 * Phi (-z)) (by linarith)
  have hA : 80 * Phi z ≤ 44.788 := by linarith
  have hB : 35.212 ≤ 80 * Phi (-z) := by linarith
  have hlog : Real.log (80 * Phi z) - Real.log (80 * Phi (-z)) ≤ 44.788 / 35.212 - 1 := by
    rw [← Real.log_div (by linarith) (by linarith)]
    refine le_trans (Real.log_le_sub_one_of_pos (by apply div_pos <;> linarith)) ?_
    have : 80 * Phi z / (80 * Phi (-z)) ≤ 44.788 / 35.212 := by
      apply div_le_div₀ <;> linarith
    linarith
  have hinv : 1 / (80 * Phi (-z)) ≤ 1 / 35.212 := one_div_le_one_div_of_le (by norm_num) hB
  have hT : 6.59 ≤ shT (999 / 1000) 80 z := by
    rw [shT_top]
    have := topOdds_bounds.1
    have e1 : (44.788:ℝ) / 35.212 - 1 ≤ 0.272 := by norm_num
    have e2 : (1:ℝ) / 35.212 ≤ 0.0284 := by norm_num
    linarith
  have hphi : 0.3989 * 0.9887 ≤ phi z := by
    rw [phi_eq_mul]
    have h2 : (0.9887:ℝ) ≤ Real.exp (-(z ^ 2) / 2) := by
      refine le_trans ?_ (Real.add_one_le_exp _)
      nlinarith
    have := phi_zero_bounds.1
    calc (0.3989:ℝ) * 0.9887 ≤ phi 0 * 0.9887 := by gcongr
      _ ≤ _ := by gcongr
  refine ⟨?_, hT⟩
  unfold topG
  calc (2.55:ℝ) ≤ (0.3989 * 0.9887) * 6.59 := by norm_num
    _ ≤ _ := by
      refine mul_le_mul hphi hT (by norm_num) (phi_pos z).le

/-- Bounds near 0 on both sides. -/
theorem topG_near {z : ℝ} (h0 : -0.15 ≤ z) (h1 : z ≤ 0.15) : 0 < topG z ∧ topG z ≤ 2.91 := by
  rcases le_total 0 z with h | h
  · exact ⟨lt_of_lt_of_le (by norm_num) (topG_ge h h1).1, (topG_le h).trans (by norm_num)⟩
  · refine ⟨topG_pos h, ?_⟩
    have h2 := (topG_ge (z := -z) (by linarith) (by linarith)).2
    have h3 : shT (999 / 1000) 80 z = 2 * topOdds - shT (999 / 1000) 80 (-z) := by
      rw [shT_top, shT_top, neg_neg]; ring
    have h4 := topOdds_bounds.2
    have h5 := phi_le_zero z
    have h6 := phi_zero_bounds.2
    have h7 := phi_pos z
    have h8 : shT (999 / 1000) 80 z ≤ 7.274 := by linarith
    unfold topG
    calc phi z * shT (999 / 1000) 80 z ≤ phi z * 7.274 := by gcongr
      _ ≤ _ := by linarith

/-- Standardised value of the second point as a function of the first at a fixed point of the update (linear kernel with
`sigma = 1`, `sigma_b = 1/1000`, points 1 and 40). -/
noncomputable def secondZ (z : ℝ) : ℝ := (1600.000001 * z - 0.06084 * topG z) / 40.000001

/-- The remaining equation. -/
noncomputable def fixEq (z : ℝ) : ℝ := 40 * (1.000001 * topG z - 40.000001 * topG (-secondZ z)) - z

theorem secondZ_continuous : Continuous secondZ := by
  have := topG_continuous
  unfold secondZ
  fun_prop

theorem fixEq_continuous : Continuous fixEq := by
  have h1 := topG_continuous
  have h2 := topG_continuous.comp secondZ_continuous.neg
  exact (continuous_const.mul ((continuous_const.mul h1).sub (continuous_const.mul h2))).sub continuous_id

theorem secondZ_target {t : ℝ} (h0 : -4 ≤ t) (h1 : t ≤ 5.8) :
    ∃ p, secondZ p = t ∧ t / 40 - 0.0001 ≤ p ∧ p ≤ t / 40 + 0.0003 := by
  have hab : t / 40 - 0.0001 ≤ t / 40 + 0.0003 := by linarith
  have g1 := topG_near (z := t / 40 - 0.0001) (by linarith) (by linarith)
  have g2 := topG_near (z := t / 40 + 0.0003) (by linarith) (by linarith)
  obtain ⟨p, hp, e⟩ := intermediate_value_Icc hab secondZ_continuous.continuousOn (show t ∈ _ from
    ⟨by unfold secondZ; rw [div_le_iff₀ (by norm_num)]; linarith,
     by unfold secondZ; rw [le_div_iff₀ (by norm_num)]; linarith⟩)
  exact ⟨p, e, hp.1, hp.2⟩

theorem continuous_root {f : ℝ → ℝ} (hf : Continuous f) {a b : ℝ} (hab : a < b) (h : f a < 0 ∧ 0 < f b ∨ 0 < f a ∧ f b < 0) :
    ∃ x ∈ Set.Ioo a b, f x = 0 := by
  rcases h with ⟨h1, h2⟩ | ⟨h1, h2⟩
  · obtain ⟨x, hx, e⟩ := intermediate_value_Ioo hab.le hf.continuousOn (show (0:ℝ) ∈ _ from ⟨h1, h2⟩)
    exact ⟨x, hx, e⟩
  · obtain ⟨x, hx, e⟩ := intermediate_value_Ioo' hab.le hf.continuousOn (show (0:ℝ) ∈ _ from ⟨h2, h1⟩)
    exact ⟨x, hx, e⟩

theorem exp_eight : (2900:ℝ) < Real.exp 8 := by
  have h := Real.exp_one_gt_d9
  have e : Real.exp 8 = Real.exp 1 ^ 8 := by rw [← Real.exp_nat_mul]; norm_num
  rw [e]
  calc (2900:ℝ) < 2.7182818283 ^ 8 := by norm_num
    _ < _ := pow_lt_pow_left₀ h (by norm_num) (by norm_num)

theorem phi_four : phi 4 < 0.00014 := by
  rw [phi_eq_mul, show (-(4:ℝ) ^ 2 / 2) = -8 by norm_num, Real.exp_neg]
  have h := exp_eight
  have h2 := phi_zero_bounds.2
  rw [← div_eq_mul_inv, div_lt_iff₀ (by positivity)]
  nlinarith

theorem Phi_neg_lower {t : ℝ} : t * phi t ≤ Phi (-t) * (1 + t ^ 2) := by
  have := mills_two (-t)
  rw [phi_neg] at this
  nlinarith

theorem Phi_neg_upper (t : ℝ) : t * Phi (-t) < phi t := by
  have := mills (-t)
  rw [phi_neg] at this
  linarith

theorem topG_neg_four : topG (-4) ≤ 0.055 := by
  have hl := Phi_neg_lower (t := 4)
  have hp := phi_four
  have hpos := phi_pos 4
  have hb := digamma_lower (x := 80 * Phi (-4)) (mul_pos (by norm_num) (Phi_pos _))
  have ha := digamma_le_log (x := 80 * Phi 4) (mul_pos (by norm_num) (Phi_pos _))
  have hlog : Real.log (80 * Phi 4) ≤ 5 := by
    have h1 : Real.log (80 * Phi 4) ≤ Real.log 128 :=
      Real.log_le_log (mul_pos (by norm_num) (Phi_pos _)) (by linarith [Phi_lt_one 4])
    rw [show (128:ℝ) = 2 ^ 7 by norm_num, Real.log_pow] at h1
    have := Real.log_two_lt_d9
    push_cast at h1
    linarith
  have hT : shT (999 / 1000) 80 (-4) ≤ 13 + 1 / (80 * Phi (-4)) := by
    rw [shT_top, neg_neg]
    have := topOdds_bounds.2
    linarith
  have hr : phi 4 * (1 / (80 * Phi (-4))) ≤ 17 / 320 := by
    rw [mul_one_div, div_le_iff₀ (mul_pos (by norm_num) (Phi_pos _))]
    linarith
  unfold topG
  rw [phi_neg]
  calc phi 4 * shT (999 / 1000) 80 (-4) ≤ phi 4 * (13 + 1 / (80 * Phi (-4))) := by gcongr
    _ = phi 4 * 13 + phi 4 * (1 / (80 * Phi (-4))) := by ring
    _ ≤ 0.00014 * 13 + 17 / 320 := by linarith
    _ ≤ _ := by norm_num

theorem topG_neg_ge {z : ℝ} (hz : 0 < z) : z / 80 ≤ topG (-z) := by
  have hu := Phi_neg_upper z
  have hp := Phi_pos (-z)
  have hb := digamma_upper (x := 80 * Phi (-z)) (mul_pos (by norm_num) hp)
  have hh : Phi (-z) ≤ 1 / 2 := by rw [← Phi_zero]; exact Phi_strictMono.monotone (by linarith)
  have ha := log_sub_le_digamma (x := 80 * Phi z) (mul_pos (by norm_num) (Phi_pos _))
  have hP : 1 / 2 ≤ Phi z := by rw [← Phi_zero]; exact Phi_strictMono.monotone (by linarith)
  have e1 : Real.log (80 * Phi (-z) + 1) ≤ Real.log 41 := Real.log_le_log (by linarith) (by linarith)
  have e2 : Real.log 40 ≤ Real.log (80 * Phi z) := Real.log_le_log (by norm_num) (by linarith)
  have e3 : Real.log 41 - Real.log 40 ≤ 1 := by
    rw [← Real.log_div (by norm_num) (by norm_num)]
    refine le_trans (Real.log_le_sub_one_of_pos (by norm_num)) (by norm_num)
  have e4 : 1 / (80 * Phi z) ≤ 1 := by rw [div_le_one (by linarith)]; linarith
  have hT : 1 / (80 * Phi (-z)) ≤ shT (999 / 1000) 80 (-z) := by
    rw [shT_top, neg_neg]
    have := topOdds_bounds.1
    linarith
  unfold topG
  rw [phi_neg]
  calc z / 80 ≤ phi z * (1 / (80 * Phi (-z))) := by
        rw [mul_one_div, le_div_iff₀ (mul_pos (by norm_num) hp)]; nlinarith
    _ ≤ _ := by gcongr; exact (phi_pos z).le

theorem topG_four : topG 4 < 0 := by
  have hu := Phi_neg_upper 4
  have hp := Phi_pos (-4)
  have hf := phi_four
  have hb := digamma_upper (x := 80 * Phi (-4)) (mul_pos (by norm_num) hp)
  have ha := log_sub_le_digamma (x := 80 * Phi 4) (mul_pos (by norm_num) (Phi_pos _))
  have hP : 1 / 2 ≤ Phi 4 := by rw [← Phi_zero]; exact Phi_strictMono.monotone (by norm_num)
  have e1 : Real.log (80 * Phi (-4) + 1) ≤ 1 := by
    refine le_trans (Real.log_le_sub_one_of_pos (by linarith)) (by linarith)
  have e2 : 0 ≤ Real.log (80 * Phi 4) := Real.log_nonneg (by linarith)
  have e4 : 1 / (80 * Phi 4) ≤ 1 := by rw [div_le_one (by linarith)]; linarith
  have e5 : 100 ≤ 1 / (80 * Phi (-4)) := by rw [le_div_iff₀ (by linarith)]; linarith
  refine mul_neg_of_pos_of_neg (phi_pos 4) ?_
  rw [shT_top]
  have := topOdds_bounds.2
  linarith

theorem Phi_neg_six : 1e-10 < Phi (-6) := by
  have hl := Phi_neg_lower (t := 6)
  have h0 := phi_zero_bounds.1
  have e : phi 6 * Real.exp 18 = phi 0 := by
    rw [phi_eq_mul 6, mul_assoc, ← Real.exp_add]; norm_num
  have h18 : Real.exp 18 < 1e8 := by
    have h := Real.exp_one_lt_d9
    have e : Real.exp 18 = Real.exp 1 ^ 18 := by rw [← Real.exp_nat_mul]; norm_num
    rw [e]
    calc Real.exp 1 ^ 18 < 2.7182818286 ^ 18 := pow_lt_pow_left₀ h (Real.exp_pos _).le (by norm_num)
      _ < _ := by norm_num
  have h6 : 0.39e-8 < phi 6 := by
    by_contra hc
    push Not at hc
    have : phi 6 * Real.exp 18 ≤ 0.39e-8 * 1e8 := mul_le_mul hc h18.le (Real.exp_pos _).le (by norm_num)
    rw [e] at this
    norm_num at this
    linarith
  norm_num at h6 hl ⊢
  linarith

/-- The update has three fixed points where nothing is clipped. -/
theorem fixEq_roots : ∃ a b c : ℝ, a < b ∧ b < c ∧ ∀ z, z = a ∨ z = b ∨ z = c →
    fixEq z = 0 ∧ -6 ≤ z ∧ z ≤ 6 ∧ -6 ≤ secondZ z ∧ secondZ z ≤ 6 := by
  obtain ⟨p1, e1, l1, u1⟩ := secondZ_target (t := -4) (by norm_num) (by norm_num)
  obtain ⟨p2, e2, l2, u2⟩ := secondZ_target (t := 0) (by norm_num) (by norm_num)
  obtain ⟨p3, e3, l3, u3⟩ := secondZ_target (t := 4) (by norm_num) (by norm_num)
  obtain ⟨p4, e4, l4, u4⟩ := secondZ_target (t := 5.8) (by norm_num) (by norm_num)
  norm_num at l1 u1 l2 u2 l3 u3 l4 u4
  have f1 : 0 < fixEq p1 := by
    have h1 := topG_pos (z := p1) (by linarith)
    have h2 := topG_four
    unfold fixEq
    rw [e1, neg_neg]
    linarith
  have f2 : fixEq p2 < 0 := by
    have h1 := (topG_near (z := p2) (by linarith) (by linarith)).2
    have h2 : 2.7 ≤ topG 0 := by
      rw [topG_zero]
      have a := phi_zero_bounds.1
      have b := topOdds_bounds.1
      nlinarith
    unfold fixEq
    rw [e2, neg_zero]
    linarith
  have f3 : 0 < fixEq p3 := by
    have h1 := (topG_ge (z := p3) (by linarith) (by linarith)).1
    have h2 := topG_neg_four
    unfold fixEq
    rw [e3]
    linarith
  have f4 : fixEq p4 < 0 := by
    have h1 := topG_le (z := p4) (by linarith)
    have h2 := topG_neg_ge (z := 5.8) (by norm_num)
    unfold fixEq
    rw [e4]
    linarith
  obtain ⟨a, ⟨ha1, ha2⟩, ha⟩ := continuous_root fixEq_continuous (show p1 < p2 by linarith) (.inr ⟨f1, f2⟩)
  obtain ⟨b, ⟨hb1, hb2⟩, hb⟩ := continuous_root fixEq_continuous (show p2 < p3 by linarith) (.inl ⟨f2, f3⟩)
  obtain ⟨c, ⟨hc1, hc2⟩, hc⟩ := continuous_root fixEq_continuous (show p3 < p4 by linarith) (.inr ⟨f3, f4⟩)
  have bound : ∀ z, -0.1001 ≤ z → z ≤ 0.1453 → -6 ≤ secondZ z ∧ secondZ z ≤ 6 := by
    intro z h1 h2
    have g := topG_near (z := z) (by linarith) (by linarith)
    unfold secondZ
    rw [le_div_iff₀ (by norm_num), div_le_iff₀ (by norm_num)]
    constructor <;> linarith
  refine ⟨a, b, c, by linarith, by linarith, ?_⟩
  rintro z (rfl | rfl | rfl)
  · exact ⟨ha, by linarith, by linarith, bound z (by linarith) (by linarith)⟩
  · exact ⟨hb, by linarith, by linarith, bound z (by linarith) (by linarith)⟩
  · exact ⟨hc, by linarith, by linarith, bound z (by linarith) (by linarith)⟩

end Lop
