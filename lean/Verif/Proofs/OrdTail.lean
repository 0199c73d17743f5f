import Verif.Proofs.RatingModes
import Verif.Proofs.OrdProbit
import Mathlib.Analysis.SpecialFunctions.Exp
import Mathlib.Analysis.SpecialFunctions.Trigonometric.DerivHyp

/-! # The tails of the ordinal likelihood -/

namespace Lop

open Spec

open Filter Topology in
/-- `(z³ + 3z) Φ(z) + (z² + 2) φ(z) ≥ 0`. -/
theorem mills_three (z : ℝ) : 0 ≤ Phi z * (z ^ 3 + 3 * z) + (z ^ 2 + 2) * phi z := by
  have hd : ∀ x, HasDerivAt (fun z => Phi z * (z ^ 3 + 3 * z) + (z ^ 2 + 2) * phi z)
      (3 * (Phi x * (1 + x ^ 2) + x * phi x)) x := by
    intro x
    have h1 := (hasDerivAt_Phi x).mul (((hasDerivAt_id x).pow 3).add ((hasDerivAt_id x).const_mul 3))
    have h2 := (((hasDerivAt_id x).pow 2).add_const 2).mul (hasDerivAt_phi x)
    refine (h1.add h2).congr_deriv ?_
    simp only [id, Nat.cast_ofNat, Pi.pow_apply, Pi.add_apply, Nat.add_one_sub_one]
    ring
  have hmono : Monotone (fun z => Phi z * (z ^ 3 + 3 * z) + (z ^ 2 + 2) * phi z) :=
    monotone_of_deriv_nonneg (fun x => (hd x).differentiableAt) fun x => by
      rw [(hd x).deriv]
      linarith [mills_two x]
  -- for negative arguments the value is at least `(x³+3x) Φ + (x²+2) φ ≥ -φ(x)/x`-like, which tends to 0
  have hlow : ∀ x, x < 0 → -phi x ≤ Phi x * (x ^ 3 + 3 * x) + (x ^ 2 + 2) * phi x := by
    intro x hx
    have h1 := mills x
    have h2 : (x ^ 2 + 3) * 0 ≤ (x ^ 2 + 3) * (x * Phi x + phi x) :=
      mul_le_mul_of_nonneg_left h1.le (by positivity)
    nlinarith
  have htend : Tendsto phi atBot (𝓝 0) := by
    have h1 : Tendsto (fun x : ℝ => -(x ^ 2) / 2) atBot atBot := by
      have : Tendsto (fun x : ℝ => x ^ 2) atBot atTop := by
        have := tendsto_pow_atTop (α := ℝ) two_ne_zero
        have h := this.comp tendsto_neg_atBot_atTop
        refine h.congr fun x => ?_
        simp
      have h2 := tendsto_neg_atTop_atBot.comp this
      exact (h2.atBot_div_const (by norm_num : (0 : ℝ) < 2))
    have h3 := (Real.tendsto_exp_atBot.comp h1).div_const (Real.sqrt (2 * Real.pi))
    rw [zero_div] at h3
    exact h3
  have h0 : Tendsto (fun x => -phi x) atBot (𝓝 0) := by simpa using htend.neg
  refine le_of_tendsto h0 ?_
  filter_upwards [eventually_lt_atBot (0 : ℝ), eventually_le_atBot z] with x hx hxz
  exact (hlow x hx).trans (hmono hxz)

/-- The ratio of the normal density to the upper tail. -/
noncomputable def hazard (t : ℝ) : ℝ := phi t / Phi (-t)

theorem hazard_pos (t : ℝ) : 0 < hazard t := div_pos (phi_pos t) (Phi_pos _)

theorem hazard_lower {t : ℝ} (ht : 0 < t) : t + t / (t ^ 2 + 2) ≤ hazard t := by
  have h := mills_three (-t)
  rw [phi_neg] at h
  unfold hazard
  rw [le_div_iff₀ (Phi_pos _)]
  have hp : 0 < t ^ 2 + 2 := by positivity
  rw [show t + t / (t ^ 2 + 2) = (t ^ 3 + 3 * t) / (t ^ 2 + 2) by field_simp; ring, div_mul_eq_mul_div, div_le_iff₀ hp]
  nlinarith

theorem hazard_gt (t : ℝ) : t < hazard t := by
  unfold hazard
  rw [lt_div_iff₀ (Phi_pos _)]
  exact Phi_neg_upper t

theorem hazard_upper {t : ℝ} (ht : 0 < t) : hazard t ≤ t + 1 / t := by
  have h := Phi_neg_lower (t := t)
  unfold hazard
  rw [div_le_iff₀ (Phi_pos _), show t + 1 / t = (1 + t ^ 2) / t by field_simp; ring, div_mul_eq_mul_div, le_div_iff₀ ht]
  linarith

theorem hazard_curv_bounds {t : ℝ} (ht : 0 < t) :
    1 - 2 / t ^ 2 ≤ hazard t * (hazard t - t) ∧ hazard t * (hazard t - t) ≤ 1 + 1 / t ^ 2 := by
  have h1 := hazard_lower ht
  have h2 := hazard_upper ht
  have h3 := hazard_gt t
  have h4 := hazard_pos t
  constructor
  · have a : t * (t / (t ^ 2 + 2)) ≤ hazard t * (hazard t - t) :=
      mul_le_mul h3.le (by linarith) (by positivity) h4.le
    refine le_trans ?_ a
    rw [show t * (t / (t ^ 2 + 2)) = 1 - 2 / (t ^ 2 + 2) by field_simp; ring]
    have : 2 / (t ^ 2 + 2) ≤ 2 / t ^ 2 := div_le_div_of_nonneg_left (by norm_num) (by positivity) (by linarith)
    linarith
  · have a : hazard t * (hazard t - t) ≤ (t + 1 / t) * (1 / t) :=
      mul_le_mul h2 (by linarith) (by linarith) (by positivity)
    refine a.trans (le_of_eq ?_)
    field_simp
    try ring

/-- The factor `φ(t+δ)/φ(t)`. -/
noncomputable def tailE (δ t : ℝ) : ℝ := Real.exp (-(t * δ + δ ^ 2 / 2))

/-- The exact reciprocal likelihood of an interval of width `δ` at distance `t`, in units of `φ(t)`. -/
noncomputable def tailR (δ t : ℝ) : ℝ := phi t / (Phi (-t) - Phi (-(t + δ)))

theorem phi_shift (δ t : ℝ) : phi (t + δ) = phi t * tailE δ t := by
  rw [phi_eq_mul (t + δ), phi_eq_mul t, mul_assoc, tailE, ← Real.exp_add]
  congr 2
  ring

theorem tail_lik_pos {δ : ℝ} (hδ : 0 < δ) (t : ℝ) : 0 < Phi (-t) - Phi (-(t + δ)) :=
  sub_pos.2 (Phi_strictMono (by linarith))

/-- The mean of the normal distribution cut to `[t, t+δ]` lies between `t` and `t + 1/t`. -/
theorem tail_mean {δ t : ℝ} (hδ : 0 < δ) (ht : 0 < t) :
    t ≤ (1 - tailE δ t) * tailR δ t ∧ (1 - tailE δ t) * tailR δ t ≤ t + 1 / t := by
  have hZ := tail_lik_pos hδ t
  have hA : (1 - tailE δ t) * tailR δ t = (phi t - phi (t + δ)) / (Phi (-t) - Phi (-(t + δ))) := by
    rw [phi_shift]; unfold tailR; ring
  have hdP : ∀ x, HasDerivAt (fun s => Phi (-s)) (-phi x) x := fun x => by
    have := (hasDerivAt_Phi (-x)).comp x (hasDerivAt_neg x)
    rw [phi_neg] at this
    exact this.congr_deriv (by ring)
  rw [hA]
  constructor
  · rw [le_div_iff₀ hZ]
    have hd : ∀ x, HasDerivAt (fun s => phi t - phi s - t * (Phi (-t) - Phi (-s))) ((x - t) * phi x) x := by
      intro x
      refine (((hasDerivAt_phi x).const_sub (phi t)).sub (((hdP x).const_sub (Phi (-t))).const_mul t)).congr_deriv ?_
      ring
    have hm : MonotoneOn (fun s => phi t - phi s - t * (Phi (-t) - Phi (-s))) (Set.Ici t) := by
      refine monotoneOn_of_deriv_nonneg (convex_Ici t) (fun x _ => (hd x).continuousAt.continuousWithinAt)
        (fun x _ => (hd x).differentiableAt.differentiableWithinAt) fun x hx => ?_
      rw [interior_Ici] at hx
      rw [(hd x).deriv]
      exact mul_nonneg (sub_nonneg.2 (le_of_lt hx)) (phi_pos x).le
    have := hm (Set.mem_Ici.2 le_rfl) (Set.mem_Ici.2 (by linarith : t ≤ t + δ)) (by linarith)
    simp only [sub_self, mul_zero] at this
    linarith
  · rw [div_le_iff₀ hZ]
    rcases le_or_gt (t + δ) (t + 1 / t) with hle | hgt
    · have hd : ∀ x, HasDerivAt (fun s => (t + 1 / t) * (Phi (-t) - Phi (-s)) - (phi t - phi s))
          ((t + 1 / t - x) * phi x) x := by
        intro x
        refine ((((hdP x).const_sub (Phi (-t))).const_mul (t + 1 / t)).sub
          ((hasDerivAt_phi x).const_sub (phi t))).congr_deriv ?_
        ring
      have hm : MonotoneOn (fun s => (t + 1 / t) * (Phi (-t) - Phi (-s)) - (phi t - phi s)) (Set.Iic (t + 1 / t)) := by
        refine monotoneOn_of_deriv_nonneg (convex_Iic _) (fun x _ => (hd x).continuousAt.continuousWithinAt)
          (fun x _ => (hd x).differentiableAt.differentiableWithinAt) fun x hx => ?_
        rw [interior_Iic] at hx
        rw [(hd x).deriv]
        exact mul_nonneg (sub_nonneg.2 (le_of_lt hx)) (phi_pos x).le
      have := hm (Set.mem_Iic.2 (by have := one_div_pos.2 ht; linarith)) (Set.mem_Iic.2 hle) (by linarith : t ≤ t + δ)
      simp only [sub_self, mul_zero] at this
      linarith
    · have h1 := hazard_upper ht
      unfold hazard at h1
      rw [div_le_iff₀ (Phi_pos _)] at h1
      have h2 := Phi_neg_upper (t + δ)
      have h3 := Phi_pos (-(t + δ))
      have h4 : (t + 1 / t) * Phi (-(t + δ)) ≤ (t + δ) * Phi (-(t + δ)) := mul_le_mul_of_nonneg_right hgt.le h3.le
      linarith

/-- The second moment about `t` of the normal distribution cut to `[t, t+δ]` lies between 0 and `2/t²`. -/
theorem tail_second_moment {δ t : ℝ} (hδ : 0 < δ) (ht : 0 < t) :
    0 ≤ 1 + (t - (t + δ) * tailE δ t) * tailR δ t - 2 * t * ((1 - tailE δ t) * tailR δ t) + t ^ 2 ∧
    1 + (t - (t + δ) * tailE δ t) * tailR δ t - 2 * t * ((1 - tailE δ t) * tailR δ t) + t ^ 2 ≤ 2 / t ^ 2 := by
  have hZ := tail_lik_pos hδ t
  have hA : 1 + (t - (t + δ) * tailE δ t) * tailR δ t - 2 * t * ((1 - tailE δ t) * tailR δ t) + t ^ 2 =
      ((1 + t ^ 2) * (Phi (-t) - Phi (-(t + δ))) + ((-t) * phi t - ((t + δ) - 2 * t) * phi (t + δ))) /
        (Phi (-t) - Phi (-(t + δ))) := by
    rw [phi_shift]; unfold tailR
    field_simp
    ring
  have hdP : ∀ x, HasDerivAt (fun s => Phi (-s)) (-phi x) x := fun x => by
    have := (hasDerivAt_Phi (-x)).comp x (hasDerivAt_neg x)
    rw [phi_neg] at this
    exact this.congr_deriv (by ring)
  have hd : ∀ c x, HasDerivAt (fun s => (1 + t ^ 2 - c) * (Phi (-t) - Phi (-s)) + ((-t) * phi t - (s - 2 * t) * phi s))
      (((x - t) ^ 2 - c) * phi x) x := by
    intro c x
    refine ((((hdP x).const_sub (Phi (-t))).const_mul (1 + t ^ 2 - c)).add
      ((((hasDerivAt_id x).sub_const (2 * t)).mul (hasDerivAt_phi x)).const_sub ((-t) * phi t))).congr_deriv ?_
    simp only [id]
    ring
  rw [hA]
  constructor
  · refine div_nonneg ?_ hZ.le
    have hm : MonotoneOn (fun s => (1 + t ^ 2 - 0) * (Phi (-t) - Phi (-s)) + ((-t) * phi t - (s - 2 * t) * phi s))
        (Set.univ) := by
      refine (monotone_of_deriv_nonneg (fun x => (hd 0 x).differentiableAt) fun x => ?_).monotoneOn _
      rw [(hd 0 x).deriv, sub_zero]
      exact mul_nonneg (sq_nonneg _) (phi_pos x).le
    have := hm (Set.mem_univ t) (Set.mem_univ (t + δ)) (by linarith)
    simp only [sub_self, mul_zero, sub_zero] at this
    linarith
  · rw [div_le_iff₀ hZ]
    have ht2 : 0 < 2 / t ^ 2 := by positivity
    by_cases hle : δ ^ 2 ≤ 2 / t ^ 2
    · have hm : AntitoneOn (fun s => (1 + t ^ 2 - 2 / t ^ 2) * (Phi (-t) - Phi (-s)) +
          ((-t) * phi t - (s - 2 * t) * phi s)) (Set.Icc t (t + δ)) := by
        refine antitoneOn_of_deriv_nonpos (convex_Icc _ _) (fun x _ => (hd _ x).continuousAt.continuousWithinAt)
          (fun x _ => (hd _ x).differentiableAt.differentiableWithinAt) fun x hx => ?_
        rw [interior_Icc] at hx
        rw [(hd _ x).deriv]
        refine mul_nonpos_of_nonpos_of_nonneg ?_ (phi_pos x).le
        have h1 : (x - t) ^ 2 ≤ δ ^ 2 := pow_le_pow_left₀ (by linarith [hx.1]) (by linarith [hx.2]) 2
        linarith
      have := hm (Set.mem_Icc.2 ⟨le_rfl, by linarith⟩) (Set.mem_Icc.2 ⟨by linarith, le_rfl⟩) (by linarith : t ≤ t + δ)
      simp only [sub_self, mul_zero] at this
      linarith
    · push Not at hle
      -- the full tail
      have hfull : (1 + t ^ 2) * Phi (-t) - t * phi t ≤ 2 / t ^ 2 * Phi (-t) := by
        have h1 := hazard_lower ht
        unfold hazard at h1
        rw [le_div_iff₀ (Phi_pos _)] at h1
        have h2 : t * ((t + t / (t ^ 2 + 2)) * Phi (-t)) ≤ t * phi t := mul_le_mul_of_nonneg_left h1 ht.le
        have h3 : 1 + t ^ 2 - t * (t + t / (t ^ 2 + 2)) = 2 / (t ^ 2 + 2) := by field_simp; ring
        have h4 : 2 / (t ^ 2 + 2) ≤ 2 / t ^ 2 := div_le_div_of_nonneg_left (by norm_num) (by positivity) (by linarith)
        have h5 := mul_le_mul_of_nonneg_right h4 (Phi_pos (-t)).le
        rw [← h3] at h5
        linarith
      -- beyond the interval
      have hbeyond : 0 ≤ (1 + t ^ 2 - 2 / t ^ 2) * Phi (-(t + δ)) + ((t + δ) - 2 * t) * phi (t + δ) := by
        have hp := phi_pos (t + δ)
        have hs : 0 < t + δ := by linarith
        rcases le_or_gt 0 (1 + t ^ 2 - 2 / t ^ 2) with h0 | h0
        · have h1 := Phi_neg_lower (t := t + δ)
          have h2 := mul_le_mul_of_nonneg_left h1 h0
          have h3 : 0 ≤ ((1 + t ^ 2 - 2 / t ^ 2) * Phi (-(t + δ)) + ((t + δ) - 2 * t) * phi (t + δ)) * (1 + (t + δ) ^ 2) := by
            have h4 : 0 ≤ ((t + δ) * (δ ^ 2 - 2 / t ^ 2) + 2 * δ) * phi (t + δ) :=
              mul_nonneg (by have := mul_pos hs (sub_pos.2 hle); linarith) hp.le
            nlinarith
          exact nonneg_of_mul_nonneg_left h3 (by positivity)
        · have h1 := Phi_neg_upper (t + δ)
          have h2 := mul_le_mul_of_nonpos_left h1.le h0.le
          have h3 : 0 ≤ ((1 + t ^ 2 - 2 / t ^ 2) * Phi (-(t + δ)) + ((t + δ) - 2 * t) * phi (t + δ)) * (t + δ) := by
            have h4 : 0 ≤ (1 + (δ ^ 2 - 2 / t ^ 2)) * phi (t + δ) := mul_nonneg (by linarith) hp.le
            nlinarith
          exact nonneg_of_mul_nonneg_left h3 hs
      linarith

theorem tailE_lt_one {δ t : ℝ} (hδ : 0 < δ) (ht : 0 ≤ t) : tailE δ t < 1 := by
  unfold tailE
  rw [Real.exp_lt_one_iff]
  have := mul_nonneg ht hδ.le
  have : 0 < δ ^ 2 := by positivity
  linarith

/-- The two corrections in the formulas of the code. -/
theorem tail_code {δ t : ℝ} (hδ : 0 < δ) (ht : 0 < t) :
    0 ≤ δ * tailE δ t / (1 - tailE δ t) ∧ δ * tailE δ t / (1 - tailE δ t) ≤ 1 / t ∧
    0 ≤ δ ^ 2 * tailE δ t / (1 - tailE δ t) ^ 2 ∧ δ ^ 2 * tailE δ t / (1 - tailE δ t) ^ 2 ≤ 1 / t ^ 2 := by
  have hp : 0 < tailE δ t := Real.exp_pos _
  have hlt := tailE_lt_one hδ ht.le
  have h1 : 0 < 1 - tailE δ t := by linarith
  set x := t * δ + δ ^ 2 / 2 with hx
  have hx0 : 0 < x := by positivity
  have htx : t * δ ≤ x := by rw [hx]; have := sq_nonneg δ; linarith
  have hex : tailE δ t = Real.exp (-x) := rfl
  refine ⟨by positivity, ?_, by positivity, ?_⟩
  · rw [div_le_div_iff₀ h1 ht, hex]
    have h2 := Real.add_one_le_exp x
    have h3 : Real.exp (-x) * Real.exp x = 1 := by rw [← Real.exp_add]; simp
    have h4 : Real.exp (-x) * (x + 1) ≤ 1 := (mul_le_mul_of_nonneg_left h2 (Real.exp_pos _).le).trans h3.le
    have h5 : t * δ * Real.exp (-x) ≤ x * Real.exp (-x) := mul_le_mul_of_nonneg_right htx (Real.exp_pos _).le
    linarith
  · -- `x² e ≤ (1 - e)²`, from `x/2 ≤ sinh (x/2)`
    have hs : x / 2 ≤ Real.sinh (x / 2) := Real.self_le_sinh_iff.2 (by linarith)
    have h2 : x * Real.exp (-(x / 2)) ≤ 1 - Real.exp (-x) := by
      rw [Real.sinh_eq] at hs
      have h3 : Real.exp (-(x / 2)) * Real.exp (x / 2) = 1 := by rw [← Real.exp_add]; simp
      have h4 : Real.exp (-(x / 2)) * Real.exp (-(x / 2)) = Real.exp (-x) := by rw [← Real.exp_add]; congr 1; ring
      have h5 := mul_le_mul_of_nonneg_left hs (Real.exp_pos (-(x / 2))).le
      nlinarith
    have h3 : (t * δ * Real.exp (-(x / 2))) ^ 2 ≤ (1 - Real.exp (-x)) ^ 2 := by
      refine pow_le_pow_left₀ (by positivity) ?_ 2
      exact (mul_le_mul_of_nonneg_right htx (Real.exp_pos _).le).trans h2
    rw [div_le_div_iff₀ (by positivity) (by positivity), hex]
    have h4 : Real.exp (-(x / 2)) ^ 2 = Real.exp (-x) := by rw [← Real.exp_nat_mul]; congr 1; push_cast; ring
    rw [mul_pow, h4] at h3
    nlinarith

/-- The formulas of the code for a middle rating in closed form. -/
theorem ordSmallMiddle_right {δ t : ℝ} (hδ : 0 < δ) (ht : 0 ≤ t) (sigma : ℝ) :
    ordSmallMiddle sigma (t + δ) t = some (1 / sigma * (t - δ * tailE δ t / (1 - tailE δ t)),
      -((1 / sigma) ^ 2 * (1 + δ ^ 2 * tailE δ t / (1 - tailE δ t) ^ 2))) := by
  have he : Real.exp (-0.5 * ((t + δ) ^ 2 - t ^ 2)) = tailE δ t := by
    unfold tailE; congr 1; ring
  have hlt : tailE δ t < 1 := by
    unfold tailE
    rw [Real.exp_lt_one_iff]
    have := mul_nonneg ht hδ.le
    have : 0 < δ ^ 2 := by positivity
    linarith
  have h1 : tailE δ t - 1 ≠ 0 := by linarith
  have h2 : 1 - tailE δ t ≠ 0 := by linarith
  unfold ordSmallMiddle
  simp only [he]
  rw [if_neg h1]
  have hx : tailE δ t - 1 = -(1 - tailE δ t) := by ring
  rw [hx]
  congr 2
  · field_simp
    ring
  · field_simp
    ring

theorem ordSmallMiddle_left {δ t : ℝ} (hδ : 0 < δ) (ht : 0 ≤ t) (sigma : ℝ) :
    ordSmallMiddle sigma (-t) (-(t + δ)) = some (-(1 / sigma * (t - δ * tailE δ t / (1 - tailE δ t))),
      -((1 / sigma) ^ 2 * (1 + δ ^ 2 * tailE δ t / (1 - tailE δ t) ^ 2))) := by
  have hpos : 0 < tailE δ t := Real.exp_pos _
  have he : Real.exp (-0.5 * ((-t) ^ 2 - (-(t + δ)) ^ 2)) = (tailE δ t)⁻¹ := by
    unfold tailE; rw [← Real.exp_neg]; congr 1; ring
  have hlt : tailE δ t < 1 := by
    unfold tailE
    rw [Real.exp_lt_one_iff]
    have := mul_nonneg ht hδ.le
    have : 0 < δ ^ 2 := by positivity
    linarith
  have h2 : 1 - tailE δ t ≠ 0 := by linarith
  have hx : (tailE δ t)⁻¹ - 1 = (1 - tailE δ t) / tailE δ t := by field_simp
  have h1 : (tailE δ t)⁻¹ - 1 ≠ 0 := by rw [hx]; exact div_ne_zero h2 hpos.ne'
  unfold ordSmallMiddle
  simp only [he]
  rw [if_neg h1, hx]
  congr 2
  · field_simp
    ring
  · field_simp
    ring

/-- What `derivatives` returns when every label has finite derivatives and a positive likelihood. -/
theorem ordDerivatives_gen {m : Nat} {o : OrdHyper ℝ} {t : List ℝ} (h : HasThresholds o t) {eps : ℝ}
    (y : List (Nat × Fin m)) (F : Fin m → ℝ) (hy : ∀ p ∈ y, 1 ≤ p.1 ∧ p.1 ≤ o.n)
    (hr : OrdInRange t o.sigma y F) (hpos : ∀ p ∈ y, 0 < ordProb t o.sigma p.1 (F p.2)) (dv d2 : Nat × Fin m → ℝ)
    (hd : ∀ p ∈ y, ordDerv1 o eps (p.1 - 1) (F p.2) (ordProb t o.sigma p.1 (F p.2)) = .ok (some (dv p, d2 p))) :
    ordDerivatives o eps (castLabels y) F =
      .ok (some (assignGrid (y.map fun p => (p.2, -d2 p)), assignVec (y.map fun p => (p.2, dv p)),
        ordLogLik t o.sigma y F)) := by
  have hzip : (castLabels y).zip (y.map fun p => ordProb t o.sigma p.1 (F p.2)) =
      y.map fun p => (((p.1 : Int), p.2), ordProb t o.sigma p.1 (F p.2)) := by
    simp only [castLabels, List.zip_map']
  have h1 : ((castLabels y).zip (y.map fun p => ordProb t o.sigma p.1 (F p.2))).mapM
      (fun (p, l) => ordDerv1 o eps (p.1 - 1).toNat (F p.2) l) = .ok (y.map fun p => some (dv p, d2 p)) := by
    rw [hzip, List.mapM_map]
    refine mapM_ok _ _ _ fun p hp => ?_
    have e1 : ((p.1 : Int) - 1).toNat = p.1 - 1 := by omega
    simp only [Function.comp, e1]
    exact hd p hp
  unfold ordDerivatives
  rw [ordLikEach_eq h y F hy hr]
  simp only [bind, Except.bind]
  erw [h1]
  simp only [pure, Except.pure, Option.bind]
  rw [mapM_some _ _ (fun e => e.getD (0, 0)) (by
    intro a ha
    obtain ⟨p, _, rfl⟩ := List.mem_map.1 ha
    rfl)]
  rw [mapM_some _ _ (fun e => e.getD 0) (by
    intro a ha
    obtain ⟨l, hl', rfl⟩ := List.mem_map.1 ha
    obtain ⟨p, hp, rfl⟩ := List.mem_map.1 hl'
    simp [npLog, hpos p hp])]
  have e3 : (castLabels y).map (·.2) = y.map (·.2) := by simp [castLabels]
  simp only [e3, List.map_map, List.zip_map', ordLogLik, Function.comp_def]
  congr 5
  refine List.map_congr_left fun p hp => ?_
  simp [npLog, hpos p hp]

/-- With increasing thresholds every rating has positive probability everywhere. -/
theorem ordProb_pos {t : List ℝ} (hsort : t.Pairwise (· < ·)) {sigma : ℝ} (hs : 0 < sigma) {k : Nat} (hk : 1 ≤ k)
    (hk' : k ≤ t.length + 1) (f : ℝ) : 0 < ordProb t sigma k f := by
  obtain ⟨k, rfl⟩ : ∃ j, k = j + 1 := ⟨k - 1, by omega⟩
  unfold ordProb
  rw [Nat.add_sub_cancel, sub_pos]
  have hdiv : ∀ {x y : ℝ}, x < y → (x - f) / sigma < (y - f) / sigma := fun h =>
    div_lt_div_of_pos_right (by linarith) hs
  cases k with
  | zero =>
    cases h : t[0]? with
    | none => simp [ordCum, h]
    | some a => simpa [ordCum, h] using Phi_pos _
  | succ k =>
    have hk1 : k < t.length := by omega
    have ha := List.getElem?_eq_getElem hk1
    rcases Nat.lt_or_ge (k + 1) t.length with h1 | h1
    · have hb := List.getElem?_eq_getElem h1
      simp only [ordCum, ha, hb]
      exact Phi_strictMono (hdiv (List.pairwise_iff_getElem.1 hsort k (k + 1) hk1 h1 (by omega)))
    · have hb := List.getElem?_eq_none h1
      simp only [ordCum, ha, hb]
      exact Phi_lt_one _

/-- One label below `eps` whose value lies below the interval of its rating. -/
theorem ordDerv1_below {o : OrdHyper ℝ} {t : List ℝ} (h : HasThresholds o t) (hsort : t.Pairwise (· < ·))
    (hs : 0 < o.sigma) {eps l : ℝ} (hl : l < eps) {k : Nat} (hk : k < t.length) {f : ℝ} (hf : f < t[k]) :
    ∃ d d2, ordDerv1 o eps (k + 1) f l = .ok (some (d, d2)) ∧
      |d - ordD t o.sigma (k + 2) f| ≤ 2 / (t[k] - f) ∧ |d2 - ordD2 t o.sigma (k + 2) f| ≤ 3 / (t[k] - f) ^ 2 := by
  have hn := h.2
  have hsig := hs.ne'
  set T := (t[k] - f) / o.sigma with hT
  have hT0 : 0 < T := div_pos (by linarith) hs
  have hfd : t[k] - f = T * o.sigma := by rw [hT]; field_simp
  have hz2 : ordZ o (k + 1) f = .ok (some T) := by
    simp only [ordZ, h.getElem hk]
    rw [hT]; congr 2; ring
  have ha := List.getElem?_eq_getElem hk
  rw [hfd]
  rcases Nat.lt_or_ge (k + 1) t.length with h1 | h1
  · -- a middle rating
    have hlt := List.pairwise_iff_getElem.1 hsort k (k + 1) hk h1 (by omega)
    set δ := (t[k + 1] - t[k]) / o.sigma with hδ
    have hδ0 : 0 < δ := div_pos (by linarith) hs
    have hT1 : (t[k + 1] - f) / o.sigma = T + δ := by rw [hT, hδ]; field_simp; ring
    have hz1 : ordZ o (k + 1 + 1) f = .ok (some (T + δ)) := by
      simp only [ordZ, h.getElem h1]
      rw [← hT1]; congr 2; ring
    have hb := List.getElem?_eq_getElem h1
    have hprob : ordProb t o.sigma (k + 2) f = Phi (-T) - Phi (-(T + δ)) := by
      simp only [ordProb, ordCum, Nat.reduceAdd, Nat.add_succ_sub_one, Nat.add_one_sub_one, ha, hb, hT1, ← hT]
      rw [Phi_neg, Phi_neg]; ring
    have hD : ordD t o.sigma (k + 2) f = 1 / o.sigma * ((1 - tailE δ T) * tailR δ T) := by
      simp only [ordD, hprob, ordP, Nat.add_succ_sub_one, ha, hb, hT1, ← hT]
      rw [phi_shift]; unfold tailR; ring
    have hD2 : ordD2 t o.sigma (k + 2) f = (1 / o.sigma) ^ 2 *
        ((T - (T + δ) * tailE δ T) * tailR δ T - ((1 - tailE δ T) * tailR δ T) ^ 2) := by
      simp only [ordD2, hD, hprob, ordZP, Nat.add_succ_sub_one, ha, hb, hT1, ← hT]
      rw [phi_shift]; unfold tailR; ring
    refine ⟨1 / o.sigma * (T - δ * tailE δ T / (1 - tailE δ T)),
      -((1 / o.sigma) ^ 2 * (1 + δ ^ 2 * tailE δ T / (1 - tailE δ T) ^ 2)), ?_, ?_, ?_⟩
    · unfold ordDerv1
      rw [if_pos hl, if_neg (by omega), if_neg (by omega)]
      simp only [hz1, hz2, bind, Except.bind, pure, Except.pure, ordSmallMiddle_right hδ0 hT0.le]
    · rw [hD]
      obtain ⟨m1, m2⟩ := tail_mean hδ0 hT0
      obtain ⟨c1, c2, -, -⟩ := tail_code hδ0 hT0
      rw [← mul_sub, abs_mul, abs_of_pos (by positivity : 0 < 1 / o.sigma),
        show 2 / (T * o.sigma) = 1 / o.sigma * (2 * (1 / T)) by field_simp]
      refine mul_le_mul_of_nonneg_left ?_ (by positivity)
      rw [abs_le]
      constructor <;> linarith
    · rw [hD2]
      obtain ⟨m1, m2⟩ := tail_mean hδ0 hT0
      obtain ⟨v1, v2⟩ := tail_second_moment hδ0 hT0
      obtain ⟨-, -, c1, c2⟩ := tail_code hδ0 hT0
      rw [← mul_neg, ← mul_sub, abs_mul, abs_of_pos (by positivity : 0 < (1 / o.sigma) ^ 2),
        show 3 / (T * o.sigma) ^ 2 = (1 / o.sigma) ^ 2 * (3 * (1 / T ^ 2)) by field_simp]
      refine mul_le_mul_of_nonneg_left ?_ (by positivity)
      set A := (1 - tailE δ T) * tailR δ T
      have hsq : (A - T) ^ 2 ≤ 1 / T ^ 2 := by
        rw [← one_div_pow]
        exact pow_le_pow_left₀ (by linarith) (by linarith) 2
      have hsq0 := sq_nonneg (A - T)
      have hw : 2 / T ^ 2 = 2 * (1 / T ^ 2) := by ring
      rw [hw] at v2
      rw [abs_le]
      constructor <;> nlinarith
  · -- the highest rating
    have hb := List.getElem?_eq_none h1
    have hprob : ordProb t o.sigma (k + 2) f = Phi (-T) := by
      simp only [ordProb, ordCum, Nat.add_succ_sub_one, ha, hb, ← hT]
      rw [Phi_neg]
    have hD : ordD t o.sigma (k + 2) f = 1 / o.sigma * hazard T := by
      simp only [ordD, hprob, ordP, Nat.add_succ_sub_one, ha, hb, ← hT]
      unfold hazard; ring
    have hD2 : ordD2 t o.sigma (k + 2) f = -((1 / o.sigma) ^ 2 * (hazard T * (hazard T - T))) := by
      simp only [ordD2, hD, hprob, ordZP, Nat.add_succ_sub_one, ha, hb, ← hT]
      unfold hazard; ring
    refine ⟨1 / o.sigma * T, -(1 / o.sigma) ^ 2, ?_, ?_, ?_⟩
    · unfold ordDerv1
      rw [if_pos hl, if_neg (by omega), if_pos (by omega)]
      simp only [hz2, bind, Except.bind, pure, Except.pure, Option.map]
    · rw [hD, ← mul_sub, abs_mul, abs_of_pos (by positivity : 0 < 1 / o.sigma),
        show 2 / (T * o.sigma) = 1 / o.sigma * (2 * (1 / T)) by field_simp]
      refine mul_le_mul_of_nonneg_left ?_ (by positivity)
      have h2 := hazard_gt T
      have h3 := hazard_upper hT0
      have h4 := one_div_pos.2 hT0
      rw [abs_le]
      constructor <;> linarith
    · obtain ⟨v1, v2⟩ := hazard_curv_bounds hT0
      rw [hD2, show -(1 / o.sigma) ^ 2 - -((1 / o.sigma) ^ 2 * (hazard T * (hazard T - T))) =
          (1 / o.sigma) ^ 2 * (hazard T * (hazard T - T) - 1) by ring, abs_mul,
        abs_of_pos (by positivity : 0 < (1 / o.sigma) ^ 2),
        show 3 / (T * o.sigma) ^ 2 = (1 / o.sigma) ^ 2 * (3 * (1 / T ^ 2)) by field_simp]
      refine mul_le_mul_of_nonneg_left ?_ (by positivity)
      have h4 : 0 < 1 / T ^ 2 := by positivity
      have hw : 2 / T ^ 2 = 2 * (1 / T ^ 2) := by ring
      rw [hw] at v1
      rw [abs_le]
      constructor <;> linarith

/-- One label below `eps` whose value lies above the interval of its rating. -/
theorem ordDerv1_above {o : OrdHyper ℝ} {t : List ℝ} (h : HasThresholds o t) (hsort : t.Pairwise (· < ·))
    (hs : 0 < o.sigma) {eps l : ℝ} (hl : l < eps) {k : Nat} (hk : k < t.length) {f : ℝ} (hf : t[k] < f) :
    ∃ d d2, ordDerv1 o eps k f l = .ok (some (d, d2)) ∧
      |d - ordD t o.sigma (k + 1) f| ≤ 2 / (f - t[k]) ∧ |d2 - ordD2 t o.sigma (k + 1) f| ≤ 3 / (f - t[k]) ^ 2 := by
  have hn := h.2
  have hsig := hs.ne'
  set T := (f - t[k]) / o.sigma with hT
  have hT0 : 0 < T := div_pos (by linarith) hs
  have hfd : f - t[k] = T * o.sigma := by rw [hT]; field_simp
  have hTn : (t[k] - f) / o.sigma = -T := by rw [hT]; ring
  have hz1 : ordZ o (k + 1) f = .ok (some (-T)) := by
    simp only [ordZ, h.getElem hk]
    rw [← hTn]; congr 2; ring
  have ha := List.getElem?_eq_getElem hk
  rw [hfd]
  rcases Nat.eq_zero_or_pos k with rfl | hk0
  · have hprob : ordProb t o.sigma (0 + 1) f = Phi (-T) := by
      simp only [ordProb, ordCum, ha, hTn]; simp
    have hD : ordD t o.sigma (0 + 1) f = -(1 / o.sigma * hazard T) := by
      rw [ordD, show ordP t o.sigma (0 + 1 - 1) f = 0 from rfl]
      simp only [hprob, ordP, ha, hTn, phi_neg]
      unfold hazard; ring
    have hD2 : ordD2 t o.sigma (0 + 1) f = -((1 / o.sigma) ^ 2 * (hazard T * (hazard T - T))) := by
      rw [ordD2, show ordZP t o.sigma (0 + 1 - 1) f = 0 from rfl]
      simp only [hD, hprob, ordZP, ha, hTn, phi_neg]
      unfold hazard; ring
    refine ⟨1 / o.sigma * (-T), -(1 / o.sigma) ^ 2, ?_, ?_, ?_⟩
    · unfold ordDerv1
      rw [if_pos hl, if_pos (by omega)]
      simp only [hz1, bind, Except.bind, pure, Except.pure, Option.map]
    · rw [hD, show 1 / o.sigma * -T - -(1 / o.sigma * hazard T) = 1 / o.sigma * (hazard T - T) by ring,
        abs_mul, abs_of_pos (by positivity : 0 < 1 / o.sigma),
        show 2 / (T * o.sigma) = 1 / o.sigma * (2 * (1 / T)) by field_simp]
      refine mul_le_mul_of_nonneg_left ?_ (by positivity)
      have h2 := hazard_gt T
      have h3 := hazard_upper hT0
      have h4 := one_div_pos.2 hT0
      rw [abs_le]
      constructor <;> linarith
    · obtain ⟨v1, v2⟩ := hazard_curv_bounds hT0
      rw [hD2, show -(1 / o.sigma) ^ 2 - -((1 / o.sigma) ^ 2 * (hazard T * (hazard T - T))) =
          (1 / o.sigma) ^ 2 * (hazard T * (hazard T - T) - 1) by ring, abs_mul,
        abs_of_pos (by positivity : 0 < (1 / o.sigma) ^ 2),
        show 3 / (T * o.sigma) ^ 2 = (1 / o.sigma) ^ 2 * (3 * (1 / T ^ 2)) by field_simp]
      refine mul_le_mul_of_nonneg_left ?_ (by positivity)
      have h4 : 0 < 1 / T ^ 2 := by positivity
      have hw : 2 / T ^ 2 = 2 * (1 / T ^ 2) := by ring
      rw [hw] at v1
      rw [abs_le]
      constructor <;> linarith
  · obtain ⟨j, rfl⟩ : ∃ j, k = j + 1 := ⟨k - 1, by omega⟩
    have hj : j < t.length := by omega
    have hlt := List.pairwise_iff_getElem.1 hsort j (j + 1) hj hk (by omega)
    set δ := (t[j + 1] - t[j]) / o.sigma with hδ
    have hδ0 : 0 < δ := div_pos (by linarith) hs
    have hT1 : (t[j] - f) / o.sigma = -(T + δ) := by rw [hT, hδ]; field_simp; ring
    have hz2 : ordZ o (j + 1) f = .ok (some (-(T + δ))) := by
      simp only [ordZ, h.getElem hj]
      rw [← hT1]; congr 2; ring
    have hb := List.getElem?_eq_getElem hj
    have hprob : ordProb t o.sigma (j + 1 + 1) f = Phi (-T) - Phi (-(T + δ)) := by
      simp only [ordProb, ordCum, Nat.add_succ_sub_one, Nat.add_one_sub_one, ha, hb, hT1, hTn]
    have hD : ordD t o.sigma (j + 1 + 1) f = -(1 / o.sigma * ((1 - tailE δ T) * tailR δ T)) := by
      simp only [ordD, hprob, ordP, Nat.add_one_sub_one, ha, hb, hT1, hTn, phi_neg]
      rw [phi_shift]; unfold tailR; ring
    have hD2 : ordD2 t o.sigma (j + 1 + 1) f = (1 / o.sigma) ^ 2 *
        ((T - (T + δ) * tailE δ T) * tailR δ T - ((1 - tailE δ T) * tailR δ T) ^ 2) := by
      simp only [ordD2, hD, hprob, ordZP, Nat.add_one_sub_one, ha, hb, hT1, hTn, phi_neg]
      rw [phi_shift]; unfold tailR; ring
    refine ⟨-(1 / o.sigma * (T - δ * tailE δ T / (1 - tailE δ T))),
      -((1 / o.sigma) ^ 2 * (1 + δ ^ 2 * tailE δ T / (1 - tailE δ T) ^ 2)), ?_, ?_, ?_⟩
    · unfold ordDerv1
      rw [if_pos hl, if_neg (by omega), if_neg (by omega)]
      simp only [hz1, hz2, bind, Except.bind, pure, Except.pure, ordSmallMiddle_left hδ0 hT0.le]
    · rw [hD]
      obtain ⟨m1, m2⟩ := tail_mean hδ0 hT0
      obtain ⟨c1, c2, -, -⟩ := tail_code hδ0 hT0
      rw [sub_neg_eq_add, neg_add_eq_sub, ← mul_sub, abs_mul, abs_of_pos (by positivity : 0 < 1 / o.sigma),
        show 2 / (T * o.sigma) = 1 / o.sigma * (2 * (1 / T)) by field_simp]
      refine mul_le_mul_of_nonneg_left ?_ (by positivity)
      rw [abs_le]
      constructor <;> linarith
    · rw [hD2]
      obtain ⟨m1, m2⟩ := tail_mean hδ0 hT0
      obtain ⟨v1, v2⟩ := tail_second_moment hδ0 hT0
      obtain ⟨-, -, c1, c2⟩ := tail_code hδ0 hT0
      rw [← mul_neg, ← mul_sub, abs_mul, abs_of_pos (by positivity : 0 < (1 / o.sigma) ^ 2),
        show 3 / (T * o.sigma) ^ 2 = (1 / o.sigma) ^ 2 * (3 * (1 / T ^ 2)) by field_simp]
      refine mul_le_mul_of_nonneg_left ?_ (by positivity)
      set A := (1 - tailE δ T) * tailR δ T
      have hsq : (A - T) ^ 2 ≤ 1 / T ^ 2 := by
        rw [← one_div_pow]
        exact pow_le_pow_left₀ (by linarith) (by linarith) 2
      have hsq0 := sq_nonneg (A - T)
      have hw : 2 / T ^ 2 = 2 * (1 / T ^ 2) := by ring
      rw [hw] at v2
      rw [abs_le]
      constructor <;> nlinarith

end Lop
