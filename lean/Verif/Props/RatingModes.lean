import Verif.Proofs.RatingModes
import Verif.Props.Laplace
import Verif.Props.FindMode
import Verif.Model.Data

/-! # Ratings: several modes (C68, C74)

Two extreme ratings, as stored by `add` for ratings 1 and 0 (clamped to 0.999 and 0.001), with the default
rating probit `AbsBoundProbit()` (`sigma = 1`, `v = 80`, `eps = 1e-10`). -/

namespace Lop.Props

open Spec Matrix

/-- The default rating probit (`AbsBoundProbit.py:126`). -/
def DefaultRatings (P : ProbitSet) : Prop := P.absSigma = 1 ∧ P.absV = 80 ∧ P.absEps = 1e-10

/-- The best rating for the first of two points and the worst for the second. -/
noncomputable def bestWorst : List (ℝ × Fin 2) := [(999 / 1000, 0), (1 / 1000, 1)]

/-- These ratings are what `add` stores for the ratings 1 and 0. -/
example : clampRating (1 : ℚ) = 999 / 1000 ∧ clampRating (0 : ℚ) = 1 / 1000 := by decide +kernel

/-- One feature; the second point has forty times the value of the first. -/
noncomputable def slopes : Matrix (Fin 2) (Fin 1) ℝ := !![1; 40]

theorem interior_local_max {f f' : ℝ → ℝ} (hf : ∀ x, HasDerivAt f (f' x) x) {a b : ℝ} (hab : a < b) (ha : 0 < f' a)
    (hb : f' b < 0) : ∃ x ∈ Set.Ioo a b, IsLocalMax f x ∧ f' x = 0 := by
  obtain ⟨x, hx, hmax⟩ := isCompact_Icc.exists_isMaxOn (Set.nonempty_Icc.2 hab.le)
    (fun x _ => (hf x).continuousAt.continuousWithinAt : ContinuousOn f (Set.Icc a b))
  have hxa : x ≠ a := by
    rintro rfl
    have h1 := (hasDerivAt_iff_tendsto_slope.1 (hf x)).eventually (lt_mem_nhds ha)
    have h2 : ∀ᶠ y in nhdsWithin x (Set.Ioi x), 0 < slope f x y :=
      h1.filter_mono (nhdsWithin_mono _ fun y hy => ne_of_gt hy)
    have h3 : ∀ᶠ y in nhdsWithin x (Set.Ioi x), y ∈ Set.Ioo x b := Ioo_mem_nhdsGT hab
    obtain ⟨y, hy1, hy2⟩ := (h2.and h3).exists
    have h4 : f y ≤ f x := hmax ⟨hy2.1.le, hy2.2.le⟩
    rw [slope_def_field, div_pos_iff_of_pos_right (by linarith [hy2.1])] at hy1
    linarith
  have hxb : x ≠ b := by
    rintro rfl
    have h1 := (hasDerivAt_iff_tendsto_slope.1 (hf x)).eventually (gt_mem_nhds hb)
    have h2 : ∀ᶠ y in nhdsWithin x (Set.Iio x), slope f x y < 0 :=
      h1.filter_mono (nhdsWithin_mono _ fun y hy => ne_of_lt hy)
    have h3 : ∀ᶠ y in nhdsWithin x (Set.Iio x), y ∈ Set.Ioo a x := Ioo_mem_nhdsLT hab
    obtain ⟨y, hy1, hy2⟩ := (h2.and h3).exists
    have h4 : f y ≤ f x := hmax ⟨hy2.1.le, hy2.2.le⟩
    rw [slope_def_field, div_neg_iff] at hy1
    rcases hy1 with h | h
    · linarith [hy2.2]
    · linarith [hy2.2]
  have hin : x ∈ Set.Ioo a b := ⟨lt_of_le_of_ne hx.1 hxa.symm, lt_of_le_of_ne hx.2 hxb⟩
  have hloc : IsLocalMax f x := hmax.isLocalMax (Icc_mem_nhds hin.1 hin.2)
  exact ⟨x, hin, hloc, hloc.hasDerivAt_eq_zero (hf x)⟩

theorem isqrt_one_pos : 0 < isqrt2sig 1 := by
  unfold isqrt2sig; positivity

/-- Nothing is clipped at standardised values up to 6. -/
theorem inR_default {f : ℝ} (h1 : -6 ≤ f * isqrt2sig 1) (h2 : f * isqrt2sig 1 ≤ 6) : InR 1 1e-10 f := by
  have h := Phi_neg_six
  have h3 := Phi_strictMono.monotone h1
  have h4 := Phi_strictMono.monotone h2
  have h5 := Phi_neg 6
  refine ⟨by linarith, by linarith, by linarith, by linarith⟩

theorem range_of_inR {F : Fin 2 → ℝ} (h0 : InR 1 1e-10 (F 0)) (h1 : InR 1 1e-10 (F 1)) :
    RatingsInRange 1 1e-10 bestWorst F := by
  intro p hp
  rw [ratingMean, div_eq_z]
  simp only [bestWorst, List.mem_cons, List.not_mem_nil, or_false] at hp
  rcases hp with rfl | rfl
  · exact h0
  · exact h1

/-- Gradient of the rating likelihood where nothing is clipped. -/
theorem bestWorst_grad {P : ProbitSet} (hP : DefaultRatings P) {F : Fin 2 → ℝ} (h0 : InR 1 1e-10 (F 0))
    (h1 : InR 1 1e-10 (F 1)) : ∃ r, gpDerivatives P ⟨none, none, some bestWorst⟩ F = .ok (some r) ∧
      r.2.1 0 = 80 * isqrt2sig 1 * topG (F 0 * isqrt2sig 1) ∧ r.2.1 1 = -(80 * isqrt2sig 1 * topG (-(F 1 * isqrt2sig 1))) := by
  obtain ⟨hs, hv, he⟩ := hP
  refine ⟨_, rfl, ?_, ?_⟩
  · simp only [pairPart, absPart, absDerivatives, hs, hv, he, bestWorst, List.map_cons, List.map_nil, assignVec,
      List.foldl_cons, List.foldl_nil, Pi.add_apply, Pi.zero_apply, zero_add]
    rw [Function.update_of_ne (by decide), Function.update_self, absDpy_of_inR h0, shG, topG]
    ring
  · simp only [pairPart, absPart, absDerivatives, hs, hv, he, bestWorst, List.map_cons, List.map_nil, assignVec,
      List.foldl_cons, List.foldl_nil, Pi.add_apply, Pi.zero_apply, zero_add]
    rw [Function.update_self, absDpy_of_inR h1, shG, topG, shT_bot, phi_neg]
    ring

/-- A Newton update with a vanishing gradient does nothing. -/
theorem newtonUpdate_zero {n : Nat} {S : Type*} [LinearOrder S] [OrderBot S] (F : Fin n → ℝ)
    (hess : Matrix (Fin n) (Fin n) ℝ) (loss : (Fin n → ℝ) → S)
    (invert : Matrix (Fin n) (Fin n) ℝ → Option (Matrix (Fin n) (Fin n) ℝ)) (itr : Nat) :
    newtonUpdate F 0 hess loss invert .binary itr = .ok F := by
  have h : descentDir 0 hess invert = 0 := by
    unfold descentDir
    split
    · exact zero_vecMul _
    · rfl
  simp [newtonUpdate, h]

/-- The log-likelihood of the two ratings as a function of the single weight. -/
theorem bestWorst_loglik (x : ℝ) : betaLogLik 1 80 bestWorst (slopes *ᵥ fun _ => x) =
    shL (999 / 1000) 80 (x * isqrt2sig 1) + shL (1 / 1000) 80 ((40 * x) * isqrt2sig 1) := by
  rw [betaLogLik_eq (by norm_num)]
  · simp [bestWorst, slopes, mulVec, dotProduct]
  · simp only [bestWorst, List.mem_cons, List.not_mem_nil, or_false]
    rintro p (rfl | rfl) <;> norm_num

theorem slopes_mulVec (w : Fin 1 → ℝ) : (slopes *ᵥ w) 0 = w 0 ∧ (slopes *ᵥ w) 1 = 40 * w 0 := by
  simp [slopes, mulVec, dotProduct]

theorem bestWorst_deriv (x : ℝ) : HasDerivAt (fun x => betaLogLik 1 80 bestWorst (slopes *ᵥ fun _ => x))
    (80 * isqrt2sig 1 * (topG (x * isqrt2sig 1) - 40 * topG (-(40 * (x * isqrt2sig 1))))) x := by
  have h1 := hasDerivAt_shL_f (sigma := 1) (v := 80) (y := 999 / 1000) (f := x) (by norm_num)
  have h2 := (hasDerivAt_shL_f (sigma := 1) (v := 80) (y := 1 / 1000) (f := 40 * x) (by norm_num)).comp x
    ((hasDerivAt_id x).const_mul 40)
  have h3 := h1.add h2
  refine (h3.congr_deriv ?_).congr_of_eventuallyEq (Filter.Eventually.of_forall fun x => ?_)
  · rw [shG, shG, shT_bot, topG, topG, phi_neg, show 40 * x * isqrt2sig 1 = 40 * (x * isqrt2sig 1) by ring]
    ring
  · exact bestWorst_loglik x

/-- C68 refuted for ratings: with the default rating probit, the best rating for a point with feature 1 and the worst
rating for a point with feature 40, the log-likelihood has two local maxima with weights of opposite signs (nothing is
clipped there), and `PreferenceLinear.optimize` started at either of them returns it: whether the fitted model prefers
large or small features depends on the random start. -/
theorem C68_ratings_modes_false (P : ProbitSet) (hP : DefaultRatings P) :
    ∃ a b : Fin 1 → ℝ, a 0 < 0 ∧ 0 < b 0 ∧ ∀ w, w = a ∨ w = b →
      RatingsInRange 1 1e-10 bestWorst (slopes *ᵥ w) ∧
      IsLocalMax (fun w => betaLogLik 1 80 bestWorst (slopes *ᵥ w)) w ∧
      linFit P ⟨none, none, some bestWorst⟩ slopes w = .ok (some w) := by
  have hc := isqrt_one_pos
  set c := isqrt2sig 1 with hcdef
  have key : ∀ x : ℝ, -6 ≤ 40 * (x * c) → 40 * (x * c) ≤ 6 →
      IsLocalMax (fun x => betaLogLik 1 80 bestWorst (slopes *ᵥ fun _ => x)) x →
      (80 * c * (topG (x * c) - 40 * topG (-(40 * (x * c))))) = 0 →
      RatingsInRange 1 1e-10 bestWorst (slopes *ᵥ fun _ => x) ∧
      IsLocalMax (fun w => betaLogLik 1 80 bestWorst (slopes *ᵥ w)) (fun _ : Fin 1 => x) ∧
      linFit P ⟨none, none, some bestWorst⟩ slopes (fun _ => x) = .ok (some fun _ => x) := by
    intro x h1 h2 hm h0
    obtain ⟨e0, e1⟩ := slopes_mulVec fun _ => x
    have r0 : InR 1 1e-10 ((slopes *ᵥ fun _ => x) 0) := by
      rw [e0]; exact inR_default (by rw [← hcdef]; linarith) (by rw [← hcdef]; linarith)
    have r1 : InR 1 1e-10 ((slopes *ᵥ fun _ => x) 1) := by
      rw [e1]; exact inR_default (by rw [← hcdef, mul_assoc]; linarith) (by rw [← hcdef, mul_assoc]; linarith)
    refine ⟨range_of_inR r0 r1, ?_, ?_⟩
    · have hc : ContinuousAt (fun w : Fin 1 → ℝ => w 0) (fun _ => x) := (continuous_apply 0).continuousAt
      have := IsLocalMax.comp_continuous (g := fun w : Fin 1 → ℝ => w 0) (b := fun _ => x) hm hc
      have e : (fun w : Fin 1 → ℝ => betaLogLik 1 80 bestWorst (slopes *ᵥ w)) =
          (fun x => betaLogLik 1 80 bestWorst (slopes *ᵥ fun _ => x)) ∘ fun w : Fin 1 → ℝ => w 0 := by
        funext w
        have : w = fun _ => w 0 := by funext i; rw [Subsingleton.elim i 0]
        simp only [Function.comp]
        rw [← this]
      rw [e]
      exact this
    · obtain ⟨r, hr, g0, g1⟩ := bestWorst_grad hP r0 r1
      have hg : r.2.1 ᵥ* slopes = 0 := by
        funext i
        rw [Subsingleton.elim i 0]
        simp only [vecMul, dotProduct, Fin.sum_univ_two, g0, g1, e0, e1, Pi.zero_apply]
        simp only [slopes, Matrix.of_apply, cons_val_zero, cons_val_one]
        rw [← hcdef, show 40 * x * c = 40 * (x * c) by ring]
        linarith
      have hu : linUpdate P ⟨none, none, some bestWorst⟩ slopes npInv (fun _ => x) = .ok (some fun _ => x) := by
        have hl : linDerivatives P ⟨none, none, some bestWorst⟩ slopes (fun _ => x) =
            .ok (some (slopesᵀ * r.1 * slopes, 0, r.2.2)) := by
          simp only [linDerivatives, linValues, hr, Except.map, Option.map, hg]
        simp only [linUpdate, hl, bind, Except.bind, newtonUpdate_zero, pure, Except.pure]
      have hs : linStep P ⟨none, none, some bestWorst⟩ slopes (some fun _ => x) = .ok (some fun _ => x, false) := by
        simp [linStep, hu, Except.map]
        norm_num
      simp [linFit, linearLoop, hs, Except.map]
  have hdz : ∀ z : ℝ, z / c * c = z := fun z => div_mul_cancel₀ z hc.ne'
  have hpos : 0 < 80 * c := by positivity
  obtain ⟨a, ⟨ha1, ha2⟩, ha3, ha4⟩ := interior_local_max bestWorst_deriv (a := -0.1 / c) (b := 0)
    (by rw [div_lt_iff₀ hc]; norm_num)
    (by
      rw [← hcdef, hdz]
      refine mul_pos hpos ?_
      have h1 := topG_pos (z := -0.1) (by norm_num)
      have h2 := topG_four
      rw [show -(40 * (-0.1)) = (4 : ℝ) by norm_num]
      linarith)
    (by
      refine mul_neg_of_pos_of_neg (by simpa only [← hcdef] using hpos) ?_
      have h1 := topG_pos (z := 0) le_rfl
      simp only [zero_mul, mul_zero, neg_zero]
      linarith)
  obtain ⟨b, ⟨hb1, hb2⟩, hb3, hb4⟩ := interior_local_max bestWorst_deriv (a := 0.1 / c) (b := 0.145 / c)
    (by gcongr; norm_num)
    (by
      rw [← hcdef, hdz]
      refine mul_pos hpos ?_
      have h1 := (topG_ge (z := 0.1) (by norm_num) (by norm_num)).1
      have h2 := topG_neg_four
      rw [show -(40 * 0.1) = (-4 : ℝ) by norm_num]
      linarith)
    (by
      rw [← hcdef, hdz]
      refine mul_neg_of_pos_of_neg hpos ?_
      have h1 := topG_le (z := 0.145) (by norm_num)
      have h2 := topG_neg_ge (z := 5.8) (by norm_num)
      rw [show -(40 * 0.145) = (-5.8 : ℝ) by norm_num]
      linarith)
  rw [div_lt_iff₀ hc] at ha1 hb1
  rw [lt_div_iff₀ hc] at hb2
  have hac : a * c < 0 := mul_neg_of_neg_of_pos ha2 hc
  refine ⟨fun _ => a, fun _ => b, ha2, ?_, ?_⟩
  · by_contra hle
    push Not at hle
    have := mul_nonpos_of_nonpos_of_nonneg hle hc.le
    linarith
  rintro w (rfl | rfl)
  · exact key a (by linarith) (by linarith) ha3 ha4
  · exact key b (by linarith) (by linarith) hb3 hb4

/-- Two one-dimensional training points, 1 and 40. -/
def farPoints : Fin 2 → Pt 1 := fun i _ => if i = 0 then 1 else 40

/-- The covariance matrix of these points under `LinearKern(1, 1/1000, 0)`. -/
noncomputable def farK : Matrix (Fin 2) (Fin 2) ℝ := !![1.000001, 40.000001; 40.000001, 1600.000001]

theorem farK_cov : kcov (.leaf (.linear 1 (1 / 1000) 0) : KExpr ℝ (Pt 1)) _ _ farPoints farPoints = .ok farK := by
  simp only [kcov, KExpr.cov, KLeaf.cov]
  congr 1
  ext i j
  fin_cases i <;> fin_cases j <;> norm_num [farK, farPoints]

theorem farK_posDef : farK.PosDef := by
  refine Matrix.PosDef.of_dotProduct_mulVec_pos ?_ ?_
  · ext i j
    fin_cases i <;> fin_cases j <;> norm_num [farK, Matrix.conjTranspose_apply]
  · intro x hx
    have e : star x ⬝ᵥ (farK *ᵥ x) = (x 0 + 40 * x 1) ^ 2 + 0.000001 * (x 0 + x 1) ^ 2 := by
      simp only [farK, star_trivial, dotProduct, mulVec, Fin.sum_univ_two, Matrix.of_apply, cons_val_zero, cons_val_one,
        Matrix.cons_val', Matrix.cons_val_fin_one]
      ring
    rw [e]
    by_contra hle
    have h1 := sq_nonneg (x 0 + 40 * x 1)
    have h2 := sq_nonneg (x 0 + x 1)
    have h3 : x 0 + 40 * x 1 = 0 := pow_eq_zero_iff (n := 2) (by norm_num) |>.1 (by linarith)
    have h4 : x 0 + x 1 = 0 := pow_eq_zero_iff (n := 2) (by norm_num) |>.1 (by linarith)
    refine hx (funext fun i => ?_)
    fin_cases i
    · show x 0 = 0
      linarith
    · show x 1 = 0
      linarith

theorem isqrt_one_sq : isqrt2sig 1 * isqrt2sig 1 = 1 / 2 := by
  have h : Real.sqrt 2 * Real.sqrt 2 = 2 := Real.mul_self_sqrt (by norm_num)
  unfold isqrt2sig
  rw [one_mul, div_mul_div_comm, one_mul, h]

/-- C74 refuted for ratings: for two points under a linear kernel (positive definite covariance matrix), the best rating
for the first and the worst for the second, default rating probit, the log posterior density has three different
stationary points at which nothing is clipped; `find_mode` started at any of them stays there. So a vanishing gradient
does not identify the mode, and what is stored depends on the start. -/
theorem C74_ratings_unique_false (P : ProbitSet) (hP : DefaultRatings P) :
    ∃ K, kcov (.leaf (.linear 1 (1 / 1000) 0) : KExpr ℝ (Pt 1)) _ _ farPoints farPoints = .ok K ∧ K.PosDef ∧
      ∃ F : Fin 3 → Fin 2 → ℝ, Function.Injective F ∧ ∀ i,
        RatingsInRange 1 1e-10 bestWorst (F i) ∧
        IsGradientAt (logPosterior K (betaLogLik 1 80 bestWorst)) 0 (F i) ∧
        ∀ (o : ModeOpts) (invert : Matrix (Fin 2) (Fin 2) ℝ → Option (Matrix (Fin 2) (Fin 2) ℝ)),
          o.normalizeGp = false → 0 ≤ o.deltaF →
          ∃ d, findMode o P ⟨none, none, some bestWorst⟩ K invert (F i) = .ok ⟨some (F i), 1, d⟩ := by
  refine ⟨farK, farK_cov, farK_posDef, ?_⟩
  have hc := isqrt_one_pos
  have hcc := isqrt_one_sq
  set c := isqrt2sig 1 with hcdef
  have hdz : ∀ z : ℝ, z / c * c = z := fun z => div_mul_cancel₀ z hc.ne'
  have key : ∀ z, fixEq z = 0 → -6 ≤ z → z ≤ 6 → -6 ≤ secondZ z → secondZ z ≤ 6 →
      ∀ F : Fin 2 → ℝ, F 0 = z / c → F 1 = secondZ z / c →
      RatingsInRange 1 1e-10 bestWorst F ∧
      IsGradientAt (logPosterior farK (betaLogLik 1 80 bestWorst)) 0 F ∧
      ∀ (o : ModeOpts) (invert : Matrix (Fin 2) (Fin 2) ℝ → Option (Matrix (Fin 2) (Fin 2) ℝ)),
        o.normalizeGp = false → 0 ≤ o.deltaF →
        ∃ d, findMode o P ⟨none, none, some bestWorst⟩ farK invert F = .ok ⟨some F, 1, d⟩ := by
    intro z h0 h1 h2 h3 h4 F e0 e1
    have r0 : InR 1 1e-10 (F 0) := by
      refine inR_default ?_ ?_ <;> rw [e0, ← hcdef, hdz] <;> assumption
    have r1 : InR 1 1e-10 (F 1) := by
      refine inR_default ?_ ?_ <;> rw [e1, ← hcdef, hdz] <;> assumption
    have hrange := range_of_inR r0 r1
    obtain ⟨r, hr, g0, g1⟩ := bestWorst_grad hP r0 r1
    rw [e0, ← hcdef, hdz] at g0
    rw [e1, ← hcdef, hdz] at g1
    have hF : farK *ᵥ r.2.1 = F := by
      have hs : 40.000001 * secondZ z = 1600.000001 * z - 0.06084 * topG z := by
        unfold secondZ; rw [mul_div_cancel₀]; norm_num
      have hz : 40 * (1.000001 * topG z - 40.000001 * topG (-secondZ z)) - z = 0 := h0
      funext i
      refine mul_right_cancel₀ hc.ne' ?_
      fin_cases i
      · show (farK *ᵥ r.2.1) 0 * c = F 0 * c
        simp only [farK, dotProduct, mulVec, Fin.sum_univ_two, Matrix.of_apply, cons_val_zero, cons_val_one,
          Matrix.cons_val', Matrix.cons_val_fin_one, g0, g1]
        rw [e0, hdz]
        linear_combination (80 * (1.000001 * topG z - 40.000001 * topG (-secondZ z))) * hcc + hz
      · show (farK *ᵥ r.2.1) 1 * c = F 1 * c
        simp only [farK, dotProduct, mulVec, Fin.sum_univ_two, Matrix.of_apply, cons_val_zero, cons_val_one,
          Matrix.cons_val', Matrix.cons_val_fin_one, g0, g1]
        rw [e1, hdz]
        have : 40.000001 * ((40.000001 * (80 * c * topG z) + 1600.000001 * -(80 * c * topG (-secondZ z))) * c) =
            40.000001 * secondZ z := by
          rw [hs]
          linear_combination (40.000001 * 80 * (40.000001 * topG z - 1600.000001 * topG (-secondZ z))) * hcc +
            1600.000001 * hz
        exact mul_left_cancel₀ (by norm_num) this
    have hgrad : (modeGradHess farK F r).1 = 0 := by
      have hdet : IsUnit farK.det := (Matrix.isUnit_iff_isUnit_det _).1 farK_posDef.isUnit
      have : farK⁻¹ *ᵥ F = r.2.1 := by
        rw [← hF, mulVec_mulVec, nonsing_inv_mul _ hdet, one_mulVec]
      simp only [modeGradHess, this, sub_self]
    refine ⟨hrange, ?_, ?_⟩
    · obtain ⟨hs, hv, he⟩ := hP
      have hl : LabelsInRange P.sigma P.absSigma P.absEps none (some bestWorst) F := by
        refine ⟨by intro p hp; simp at hp, by simpa only [hs, he, Option.getD_some] using hrange, ?_, by
          simp [bestWorst]⟩
        simp only [Option.getD_some, bestWorst, List.mem_cons, List.not_mem_nil, or_false]
        rintro p (rfl | rfl) <;> norm_num
      obtain ⟨r', hr', -, hg, -⟩ := C74_derivatives_partial P (by rw [hv]; norm_num) none (some bestWorst) F hl farK_posDef
      rw [hr] at hr'
      cases hr'
      rw [hgrad] at hg
      have e : pairRatingLogLik P.sigma P.absSigma P.absV none (some bestWorst) = betaLogLik 1 80 bestWorst := by
        funext G
        simp [pairRatingLogLik, pairLogLik, hs, hv]
      rw [e] at hg
      exact hg
    · intro o invert ho hd
      have hu : findModeUpdate P ⟨none, none, some bestWorst⟩ farK invert F = .ok (some F) := by
        simp only [findModeUpdate, hr, bind, Except.bind, hgrad, newtonUpdate_zero, pure, Except.pure]
      have hs : findModeStep o P ⟨none, none, some bestWorst⟩ farK invert (some F) = .ok (some F, false) := by
        simp [findModeStep, hu, Except.map, normalizeIterate, ho, hd]
      refine ⟨some r, ?_⟩
      have hl : findModeLoop (findModeStep o P ⟨none, none, some bestWorst⟩ farK invert) o.maxloops (o.maxloops + 2)
          (some F) true 0 = some (.ok (some F, 1)) := by
        rw [show o.maxloops + 2 = (o.maxloops + 1) + 1 by omega, findModeLoop, if_pos rfl, hs]
        simp only [zero_add]
        split
        · rfl
        · rw [findModeLoop]; simp
      have hdec : ∀ [Decidable farK.PosDef], decide farK.PosDef = true := fun {_} => decide_eq_true farK_posDef
      simp only [findMode, hdec, hl, bind, Except.bind, hr, Except.map]
  obtain ⟨a, b, d, hab, hbd, hall⟩ := fixEq_roots
  let zs : Fin 3 → ℝ := ![a, b, d]
  have hinj : ∀ i j : Fin 3, zs i = zs j → i = j := by
    intro i j h
    fin_cases i <;> fin_cases j <;> simp [zs] at h ⊢ <;> linarith
  refine ⟨fun i => ![zs i / c, secondZ (zs i) / c], ?_, ?_⟩
  · intro i j h
    have h0 := congrFun h 0
    simp only [cons_val_zero] at h0
    exact hinj i j ((div_left_inj' hc.ne').1 h0)
  · intro i
    have hz : zs i = a ∨ zs i = b ∨ zs i = d := by fin_cases i <;> simp [zs]
    obtain ⟨k0, k1, k2, k3, k4⟩ := hall _ hz
    exact key _ k0 k1 k2 k3 k4 _ rfl rfl

/-- C74 refuted for ratings, the direction of the update: for one point with prior variance 1 and the rating 1 (stored as
0.999) there is a latent value, nothing clipped, at which the curvature of the log posterior density is positive and the
Newton update of `find_mode` goes strictly downhill (first order), whatever routine inverts invertible matrices. -/
theorem C74_ratings_downhill_false (P : ProbitSet) (hP : DefaultRatings P) :
    ∃ F g : Fin 1 → ℝ, RatingsInRange 1 1e-10 [(999 / 1000, (0 : Fin 1))] F ∧
      IsGradientAt (logPosterior 1 (betaLogLik 1 80 [(999 / 1000, (0 : Fin 1))])) g F ∧
      ∀ invert : Matrix (Fin 1) (Fin 1) ℝ → Option (Matrix (Fin 1) (Fin 1) ℝ), InvertsInvertible invert →
        ∃ F', findModeUpdate P ⟨none, none, some [(999 / 1000, (0 : Fin 1))]⟩ 1 invert F = .ok (some F') ∧
          g ⬝ᵥ (F' - F) < 0 := by
  have hc := isqrt_one_pos
  have hcc := isqrt_one_sq
  have hdz : ∀ z : ℝ, z / isqrt2sig 1 * isqrt2sig 1 = z := fun z => div_mul_cancel₀ z hc.ne'
  obtain ⟨f, ⟨hf1, hf2⟩, hf⟩ := exists_hasDerivAt_eq_slope
    (fun x => shG (999 / 1000) (isqrt2sig 1) 80 (x * isqrt2sig 1))
    (fun x => -shW (999 / 1000) (isqrt2sig 1) 80 (x * isqrt2sig 1))
    (show -4 / isqrt2sig 1 < 0 by rw [div_lt_iff₀ hc]; norm_num)
    (fun x _ => (hasDerivAt_shG_f (by norm_num)).continuousAt.continuousWithinAt)
    (fun x _ => hasDerivAt_shG_f (by norm_num))
  have hsh : ∀ z, shG (999 / 1000) (isqrt2sig 1) 80 z = 80 * isqrt2sig 1 * topG z := by
    intro z; simp only [shG, topG]; ring
  rw [div_lt_iff₀ hc] at hf1
  have hfc : f * isqrt2sig 1 < 0 := mul_neg_of_neg_of_pos hf2 hc
  have hin : InR 1 1e-10 f := inR_default (by linarith) (by linarith)
  have hW : 20 ≤ -shW (999 / 1000) (isqrt2sig 1) 80 (f * isqrt2sig 1) := by
    rw [hf, hsh, hsh, hdz, zero_mul, zero_sub, neg_div, neg_neg, le_div_iff₀ (by positivity)]
    have h1 := topG_neg_four
    have h2 : 2.7 ≤ topG 0 := by
      rw [topG_zero]
      have a := phi_zero_bounds.1
      have b := topOdds_bounds.1
      nlinarith
    have e : 20 * (4 / isqrt2sig 1) = 160 * isqrt2sig 1 := by
      rw [← mul_div_assoc, div_eq_iff hc.ne']
      linear_combination -160 * hcc
    rw [e]
    nlinarith
  have hgpos : 0 < shG (999 / 1000) (isqrt2sig 1) 80 (f * isqrt2sig 1) := by
    rw [hsh]
    exact mul_pos (by positivity) (topG_pos hfc.le)
  set F : Fin 1 → ℝ := fun _ => f with hF
  have hrange : RatingsInRange 1 1e-10 [(999 / 1000, (0 : Fin 1))] F := by
    intro p hp
    rw [ratingMean, div_eq_z]
    exact hin
  obtain ⟨hs, hv, he⟩ := hP
  have hl : LabelsInRange P.sigma P.absSigma P.absEps none (some [(999 / 1000, (0 : Fin 1))]) F := by
    refine ⟨by intro p hp; simp at hp, by simpa only [hs, he, Option.getD_some] using hrange, ?_, by simp⟩
    simp only [Option.getD_some, List.mem_cons, List.not_mem_nil, or_false]
    rintro p rfl
    norm_num
  obtain ⟨r, hr, -, hg, -⟩ := C74_derivatives_partial P (by rw [hv]; norm_num) none _ F hl (PosDef.one (n := Fin 1) (R := ℝ))
  have e : pairRatingLogLik P.sigma P.absSigma P.absV none (some [(999 / 1000, (0 : Fin 1))]) =
      betaLogLik 1 80 [(999 / 1000, (0 : Fin 1))] := by
    funext G
    simp [pairRatingLogLik, pairLogLik, hs, hv]
  rw [e] at hg
  refine ⟨F, _, hrange, hg, ?_⟩
  have hr1 : r.1 0 0 = shW (999 / 1000) (isqrt2sig 1) 80 (f * isqrt2sig 1) ∧
      r.2.1 0 = shG (999 / 1000) (isqrt2sig 1) 80 (f * isqrt2sig 1) := by
    have : gpDerivatives P ⟨none, none, some [(999 / 1000, (0 : Fin 1))]⟩ F = .ok (some _) := rfl
    rw [this] at hr
    cases hr
    constructor
    · simp [pairPart, absPart, absDerivatives, assignDiag, assignVec, hs, hv, he, hF, absWdiag_of_inR hin]
    · simp [pairPart, absPart, absDerivatives, assignVec, hs, hv, he, hF, absDpy_of_inR hin]
  set h : ℝ := -shW (999 / 1000) (isqrt2sig 1) 80 (f * isqrt2sig 1) - 1 with hh
  have hpos : 0 < h := by linarith
  have hhess : (modeGradHess 1 F r).2 = h • (1 : Matrix (Fin 1) (Fin 1) ℝ) := by
    ext i j
    rw [Subsingleton.elim i 0, Subsingleton.elim j 0]
    simp only [modeGradHess, inv_one, Matrix.sub_apply, Matrix.neg_apply, hr1.1, Matrix.one_apply_eq, Matrix.smul_apply,
      smul_eq_mul, mul_one, hh]
  have hg0 : 0 < (modeGradHess 1 F r).1 0 := by
    simp only [modeGradHess, inv_one, one_mulVec, Pi.sub_apply, hr1.2, hF]
    linarith
  have hdet : IsUnit ((modeGradHess 1 F r).2).det := by
    rw [hhess]; simp [hpos.ne']
  have hinv' : ((modeGradHess 1 F r).2)⁻¹ = h⁻¹ • (1 : Matrix (Fin 1) (Fin 1) ℝ) := by
    rw [hhess]
    refine inv_eq_right_inv ?_
    rw [smul_mul_smul_comm, mul_inv_cancel₀ hpos.ne', one_smul, Matrix.one_mul]
  intro invert hinv
  have hd : descentDir (modeGradHess 1 F r).1 (modeGradHess 1 F r).2 invert = h⁻¹ • (modeGradHess 1 F r).1 := by
    rw [descentDir, hinv _ hdet, hinv']
    simp only [vecMul_smul, vecMul_one]
  obtain ⟨lam, hlam, hup⟩ : ∃ lam : ℝ, 0 < lam ∧
      findModeUpdate P ⟨none, none, some [(999 / 1000, (0 : Fin 1))]⟩ 1 invert F =
        .ok (some (F - lam • h⁻¹ • (modeGradHess 1 F r).1)) := by
    refine ⟨_, C28_positive (fun x : ℝ => lossValue (likliF P ⟨none, none, some [(999 / 1000, (0 : Fin 1))]⟩ 1
      (F - x • h⁻¹ • (modeGradHess 1 F r).1))) 3 (3 / 2) (by norm_num), ?_⟩
    simp only [findModeUpdate, hr, bind, Except.bind, newtonUpdate, hd, pure, Except.pure]
  refine ⟨_, hup, ?_⟩
  have : F - lam • h⁻¹ • (modeGradHess 1 F r).1 - F = -((lam * h⁻¹) • (modeGradHess 1 F r).1) := by
    rw [smul_smul]; abel
  rw [this, dotProduct_neg, dotProduct_smul, smul_eq_mul]
  have : 0 < (modeGradHess 1 F r).1 ⬝ᵥ (modeGradHess 1 F r).1 := by
    simp only [dotProduct, Finset.univ_unique, Fin.default_eq_zero, Finset.sum_singleton]
    positivity
  have : 0 < lam * h⁻¹ * ((modeGradHess 1 F r).1 ⬝ᵥ (modeGradHess 1 F r).1) := by positivity
  linarith

/-- The default parameters, as an instance of the hypothesis. -/
example : DefaultRatings ⟨1 / 2, ⟨1, 5, []⟩, 1e-10, 1, 80, 1e-10⟩ := ⟨rfl, rfl, rfl⟩

end Lop.Props
