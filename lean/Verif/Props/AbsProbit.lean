import Verif.Proofs.AbsProbit
import Mathlib.Analysis.Real.Pi.Bounds
import Mathlib.Analysis.Complex.ExponentialBounds

/-! # C41, C42, C64: absolute ratings (beta model) -/

namespace Lop.Props

open Lop Lop.Spec ProbabilityTheory

variable {m : Nat}

section C41

theorem isqrt_pos {sigma : ℝ} (hs : 0 < sigma) : 0 < isqrt2sig sigma := by
  unfold isqrt2sig; positivity

/-- C41: the shape parameters are positive and sum to the precision, the mean link lies in
`[eps, 1 - eps]` and is non-decreasing in the latent value (strictly increasing where nothing is
clipped, where it is `Φ(f/(√2 σ))`). -/
theorem C41_shapes (sigma v eps : ℝ) (hs : 0 < sigma) (hv : 0 < v) (h0 : 0 < eps) (h1 : eps ≤ 1 / 2) :
    (∀ f, 0 < (alphaBeta sigma v eps f).1 ∧ 0 < (alphaBeta sigma v eps f).2 ∧
      (alphaBeta sigma v eps f).1 + (alphaBeta sigma v eps f).2 = v ∧
      (alphaBeta sigma v eps f).1 = v * meanLink sigma eps f ∧
      eps ≤ meanLink sigma eps f ∧ meanLink sigma eps f ≤ 1 - eps) ∧
    Monotone (meanLink sigma eps) ∧
    ∀ f, RatingsInRange sigma eps [((0 : ℝ), (0 : Fin 1))] (fun _ => f) →
      meanLink sigma eps f = ratingMean sigma f := by
  have hml : ∀ f, eps ≤ meanLink sigma eps f ∧ meanLink sigma eps f ≤ 1 - eps := by
    intro f
    unfold meanLink npClip
    refine ⟨le_min (le_max_right _ _) (by linarith), min_le_right _ _⟩
  refine ⟨fun f => ?_, ?_, ?_⟩
  · obtain ⟨ha, hb⟩ := hml f
    have e : alphaBeta sigma v eps f = (v * meanLink sigma eps f, v - v * meanLink sigma eps f) := rfl
    have p1 : 0 < v * meanLink sigma eps f := mul_pos hv (by linarith)
    have p2 : v * meanLink sigma eps f < v * 1 := mul_lt_mul_of_pos_left (by linarith) hv
    rw [e]
    exact ⟨p1, by simp only; linarith, by simp, rfl, ha, hb⟩
  · intro f g hfg
    unfold meanLink npClip
    refine min_le_min_right _ (max_le_max_right _ ?_)
    exact Phi_strictMono.monotone (npClip_mono (mul_le_mul_of_nonneg_right hfg (isqrt_pos hs).le))
  · intro f h
    have := inR_of_range h ((0 : ℝ), (0 : Fin 1)) (by simp)
    rw [meanLink_of_inR this, ratingMean, div_eq_z]

/-- Values for which all hypotheses on ratings hold: latent value 0, clipping limit 10⁻³. -/
theorem inRange_zero (sigma eps : ℝ) (h1 : eps < 1 / 2) (y : List (ℝ × Fin m)) :
    RatingsInRange sigma eps y (fun _ => 0) := by
  intro p _
  simp only [ratingMean, zero_div, Phi_zero]
  exact ⟨by norm_num, by norm_num, h1, by linarith⟩

example : RatingsInRange 1 (1 / 1000) [((1 / 4 : ℝ), (0 : Fin 2)), (3 / 4, 1)] (fun _ => 0) :=
  inRange_zero 1 _ (by norm_num) _

theorem betaLogLik_eq {sigma v : ℝ} (hv : 0 < v) {y : List (ℝ × Fin m)}
    (hy : ∀ p ∈ y, 0 < p.1 ∧ p.1 < 1) (F : Fin m → ℝ) :
    betaLogLik sigma v y F = (y.map fun p => shL p.1 v (F p.2 * isqrt2sig sigma)).sum := by
  unfold betaLogLik
  refine sum_map_congr fun p hp => ?_
  rw [← log_beta_sh hv (hy p hp).1 (hy p hp).2, ratingMean, div_eq_z]
  simp only [shA, shB]
  congr 2
  ring

theorem absPy_sum {sigma v eps : ℝ} (hv : 0 < v) {y : List (ℝ × Fin m)}
    (hy : ∀ p ∈ y, 0 < p.1 ∧ p.1 < 1) {F : Fin m → ℝ} (h : RatingsInRange sigma eps y F) :
    (y.map fun p => absPy sigma v eps p.1 (F p.2)).sum = betaLogLik sigma v y F := by
  rw [betaLogLik_eq hv hy]
  refine sum_map_congr fun p hp => ?_
  exact absPy_of_inR hv (hy p hp).1 (hy p hp).2 (inR_of_range h p hp)

theorem absW_entry (sigma v eps : ℝ) (y : List (ℝ × Fin m)) (F : Fin m → ℝ) (i j : Fin m) :
    (absDerivatives sigma v eps y F).1 i j =
      -(if i = j then lastValue (y.map fun p => (p.2, absWdiag sigma v eps p.1 (F p.2))) i else 0) := by
  simp only [absDerivatives, assignDiag, assignVec_eq]

theorem exp_sum_log {ι : Type} (l : List ι) (f : ι → ℝ) (h : ∀ x ∈ l, 0 < f x) :
    Real.exp (l.map fun x => Real.log (f x)).sum = (l.map f).prod := by
  induction l with
  | nil => simp
  | cons x l ih =>
    have h1 := h x (by simp)
    have h2 := ih fun z hz => h z (by simp [hz])
    simp only [List.map_cons, List.sum_cons, List.prod_cons, Real.exp_add, Real.exp_log h1, h2]

/-- C41: where no clipping is active and every training index is rated at most once, the three results of
`derivatives` are minus the Hessian, the gradient and the value of the beta log-likelihood, and
`log_likelihood` is the same value. Partial: the clipped region and repeated indices are excluded
(`C41_clipped_counterexample`, `C42_abs_counterexample`). -/
theorem C41_derivatives_partial (sigma v eps : ℝ) (hv : 0 < v) (y : List (ℝ × Fin m))
    (hy : ∀ p ∈ y, 0 < p.1 ∧ p.1 < 1) (hd : (y.map (·.2)).Nodup) (F : Fin m → ℝ)
    (h : RatingsInRange sigma eps y F) :
    IsHessianAt (betaLogLik sigma v y) (fun i j => -(absDerivatives sigma v eps y F).1 i j) F ∧
      IsGradientAt (betaLogLik sigma v y) (absDerivatives sigma v eps y F).2.1 F ∧
      (absDerivatives sigma v eps y F).2.2 = betaLogLik sigma v y F ∧
      absLogLik sigma v eps y F = betaLogLik sigma v y F ∧
      absLikelihood sigma v eps y F =
        (y.map fun p => betaPDFReal (v * ratingMean sigma (F p.2)) (v * (1 - ratingMean sigma (F p.2)))
          p.1).prod := by
  have hin := inR_of_range h
  have hfun : betaLogLik sigma v y =
      fun F => (y.map fun p => shL p.1 v (F p.2 * isqrt2sig sigma)).sum := by
    funext F; exact betaLogLik_eq hv hy F
  have hll : absLogLik sigma v eps y F = betaLogLik sigma v y F := by
    rw [← absPy_sum hv hy h, absLogLik]
    simp only [assignVec_eq]
    have : ∀ i, lastValue (y.map fun p => (p.2, absPy sigma v eps p.1 (F p.2))) i =
        (y.map fun p => if p.2 = i then absPy sigma v eps p.1 (F p.2) else 0).sum := by
      intro i
      rw [lastValue_nodup _ (by simpa [List.map_map, Function.comp_def] using hd), List.map_map]
      rfl
    simp only [this]
    rw [sum_finset_list]
    refine sum_map_congr fun p _ => ?_
    simp
  refine ⟨?_, ?_, absPy_sum hv hy h, hll, ?_⟩
  · have h1 := hess_separable y (·.2) (fun p x => shL p.1 v (x * isqrt2sig sigma))
      (fun p x => shG p.1 (isqrt2sig sigma) v (x * isqrt2sig sigma))
      (fun p => -shW p.1 (isqrt2sig sigma) v (F p.2 * isqrt2sig sigma)) F
      (fun p _ => Filter.Eventually.of_forall fun x => hasDerivAt_shL_f hv)
      (fun p _ => hasDerivAt_shG_f hv)
    rw [hfun]
    convert h1 using 3 with i j
    rw [absW_entry, neg_neg]
    rw [lastValue_nodup _ (by simpa [List.map_map, Function.comp_def] using hd), List.map_map]
    split
    · next hij =>
      subst hij
      refine sum_map_congr fun p hp => ?_
      simp only [Function.comp, and_self]
      rw [absWdiag_of_inR (hin p hp)]
    · next hij =>
      symm
      refine List.sum_eq_zero fun x hx => ?_
      obtain ⟨p, -, rfl⟩ := List.mem_map.1 hx
      rw [if_neg]
      rintro ⟨rfl, h⟩
      exact hij h
  · have h1 := grad_separable y (·.2) (fun p x => shL p.1 v (x * isqrt2sig sigma))
      (fun p x => shG p.1 (isqrt2sig sigma) v (x * isqrt2sig sigma)) F (fun p _ => hasDerivAt_shL_f hv)
    rw [hfun]
    convert h1 using 1
    funext i
    simp only [absDerivatives]
    rw [assignVec_eq, lastValue_nodup _ (by simpa [List.map_map, Function.comp_def] using hd), List.map_map]
    refine sum_map_congr fun p hp => ?_
    simp only [Function.comp]
    rw [absDpy_of_inR (hin p hp)]
  · rw [absLikelihood, hll, betaLogLik]
    refine exp_sum_log y _ fun p hp => betaPDFReal_pos (hy p hp).1 (hy p hp).2 ?_ ?_
    · exact mul_pos hv (Phi_pos _)
    · exact mul_pos hv (by have := Phi_lt_one (F p.2 / (Real.sqrt 2 * sigma)); unfold ratingMean; linarith)

/-- Non-trivial instance: two points with different ratings. -/
example : IsGradientAt (betaLogLik 1 80 [((1 / 4 : ℝ), (0 : Fin 2)), (3 / 4, 1)])
    (absDerivatives 1 80 (1 / 1000) [((1 / 4 : ℝ), (0 : Fin 2)), (3 / 4, 1)] (fun _ => 0)).2.1
    (fun _ => 0) :=
  (C41_derivatives_partial 1 80 (1 / 1000) (by norm_num) _
    (by simp only [List.mem_cons, List.not_mem_nil, or_false]
        rintro p (rfl | rfl) <;> norm_num)
    (by decide) _ (inRange_zero 1 _ (by norm_num) _)).2.1

theorem grad_const_near {f : (Fin m → ℝ) → ℝ} {F : Fin m → ℝ} (h : ∀ᶠ G in nhds F, f G = f F) :
    IsGradientAt f (fun _ => 0) F := by
  refine HasFDerivAt.congr_of_eventuallyEq ((hasFDerivAt_const (f F) F).congr_fderiv ?_) h
  ext v; simp

theorem assignVec_single (u : Fin m) (x : ℝ) (i : Fin m) :
    assignVec [(u, x)] i = if u = i then x else 0 := by
  rw [assignVec_eq]
  by_cases h : u = i <;> simp [lastValue, h]

theorem absLogLik_single (sigma v eps y : ℝ) (u : Fin m) (F : Fin m → ℝ) :
    absLogLik sigma v eps [(y, u)] F = absPy sigma v eps y (F u) := by
  simp [absLogLik, assignVec_single]

/-- C41 refuted where the mean link is clipped: the log-likelihood does not depend on the latent value
there (its gradient is 0), but the returned gradient is not 0 for at least one of any two different
ratings. -/
theorem C41_clipped_counterexample (sigma v eps : ℝ) (hs : 0 < sigma) (hv : 0 < v) (h0 : 0 < eps)
    (h1 : eps < 1 / 2) (u : Fin m) (F : Fin m → ℝ) (hF : F u / (Real.sqrt 2 * sigma) < 100)
    (hc : 1 - eps < ratingMean sigma (F u)) (y1 y2 : ℝ) (hy1 : 0 < y1 ∧ y1 < 1) (hy2 : 0 < y2 ∧ y2 < 1)
    (hne : y1 ≠ y2) :
    ∃ y ∈ [y1, y2], IsGradientAt (absLogLik sigma v eps [(y, u)]) (fun _ => 0) F ∧
      ¬ IsGradientAt (absLogLik sigma v eps [(y, u)]) (absDerivatives sigma v eps [(y, u)] F).2.1 F := by
  rw [div_eq_z] at hF
  rw [ratingMean, div_eq_z] at hc
  have hz0 : 0 < F u * isqrt2sig sigma := by
    by_contra hle
    have := Phi_strictMono.monotone (not_lt.1 hle)
    rw [Phi_zero] at this
    linarith
  have hcont : ContinuousAt (fun G : Fin m → ℝ => G u * isqrt2sig sigma) F :=
    ((continuous_apply u).mul continuous_const).continuousAt
  have hP : ContinuousAt (fun G : Fin m → ℝ => Phi (G u * isqrt2sig sigma)) F :=
    (continuous_Phi.continuousAt).comp (f := fun G : Fin m → ℝ => G u * isqrt2sig sigma) hcont
  have hml : ∀ᶠ G in nhds F, meanLink sigma eps (G u) = 1 - eps := by
    filter_upwards [hcont.eventually (gt_mem_nhds hF), hcont.eventually (lt_mem_nhds hz0),
      hP.eventually (lt_mem_nhds hc)] with G g1 g2 g3
    rw [meanLink, stdNormCdf_of_mem (by linarith) g1.le, npClip, max_eq_left (by linarith),
      min_eq_right g3.le]
  have hgrad : ∀ y, IsGradientAt (absLogLik sigma v eps [(y, u)]) (fun _ => 0) F := by
    intro y
    refine grad_const_near ?_
    have hF' := hml.self_of_nhds
    filter_upwards [hml] with G hG
    rw [absLogLik_single, absLogLik_single]
    simp only [absPy, alphaBeta, hG, hF']
  have hF' := hml.self_of_nhds
  have hD : ∀ y, (absDerivatives sigma v eps [(y, u)] F).2.1 u =
      v * isqrt2sig sigma * stdNormPdf (F u * isqrt2sig sigma) *
        absTmp y (v * (1 - eps)) (v - v * (1 - eps)) := by
    intro y
    simp only [absDerivatives, List.map_cons, List.map_nil, assignVec_single, if_true, absDpy, alphaBeta, hF']
  have hpos : 0 < v * isqrt2sig sigma * stdNormPdf (F u * isqrt2sig sigma) :=
    mul_pos (mul_pos hv (isqrt_pos hs)) (phi_pos _)
  have logit : Real.log y1 - Real.log (1 - y1) ≠ Real.log y2 - Real.log (1 - y2) := by
    have mono : ∀ a b : ℝ, 0 < a → b < 1 → a < b →
        Real.log a - Real.log (1 - a) < Real.log b - Real.log (1 - b) := by
      intro a b ha hb hab
      have l1 := Real.log_lt_log ha hab
      have l2 := Real.log_lt_log (show 0 < 1 - b by linarith) (show 1 - b < 1 - a by linarith)
      linarith
    rcases lt_or_gt_of_ne hne with h | h
    · exact (mono _ _ hy1.1 hy2.2 h).ne
    · exact (mono _ _ hy2.1 hy1.2 h).ne'
  by_contra hcon
  push Not at hcon
  have z1 := (hcon y1 (by simp) (hgrad y1)).unique_entry (hgrad y1) u
  have z2 := (hcon y2 (by simp) (hgrad y2)).unique_entry (hgrad y2) u
  rw [hD] at z1 z2
  have t1 : absTmp y1 (v * (1 - eps)) (v - v * (1 - eps)) = 0 := by
    rcases mul_eq_zero.1 z1 with h | h
    · exact absurd h hpos.ne'
    · exact h
  have t2 : absTmp y2 (v * (1 - eps)) (v - v * (1 - eps)) = 0 := by
    rcases mul_eq_zero.1 z2 with h | h
    · exact absurd h hpos.ne'
    · exact h
  unfold absTmp at t1 t2
  exact logit (by linarith)

/-- The clipped region exists inside the limits of `std_norm_cdf`: `Φ(29) > 1 - 10⁻¹⁰`. -/
example : 1 - 1 / 10 ^ 10 < ratingMean 1 (29 * Real.sqrt 2) := by
  have e : 29 * Real.sqrt 2 / (Real.sqrt 2 * 1) = 29 := by
    have : Real.sqrt 2 ≠ 0 := by positivity
    field_simp
  rw [ratingMean, e]
  have h1 := mills (-29)
  have h2 : phi (-29) ≤ Real.exp (-(29 ^ 2) / 2) := by
    unfold phi
    rw [show ((-29 : ℝ)) ^ 2 = 29 ^ 2 by norm_num]
    refine div_le_self (Real.exp_pos _).le ?_
    rw [Real.one_le_sqrt]
    nlinarith [Real.pi_gt_three]
  have h3 : Real.exp (-(29 ^ 2) / 2) ≤ Real.exp (-40) := Real.exp_le_exp.2 (by norm_num)
  have h4 : Real.exp (-40) ≤ 1 / 2 ^ 40 := by
    rw [Real.exp_neg, one_div]
    refine inv_anti₀ (by positivity) ?_
    rw [show (40 : ℝ) = (40 : Nat) * 1 by norm_num, Real.exp_nat_mul]
    exact pow_le_pow_left₀ (by norm_num) (by linarith [Real.exp_one_gt_d9]) 40
  have h5 : (1 : ℝ) / 2 ^ 40 < 1 / 10 ^ 10 := by norm_num
  have h6 := Phi_pos (-29)
  have h7 := Phi_neg 29
  nlinarith

end C41

section C42

/-- C42 refuted for absolute ratings: a rating of a point that is rated again later has no influence on
`W`, on the gradient and on `log_likelihood`; only the third result of `derivatives` counts it. -/
theorem C42_abs_counterexample (sigma v eps : ℝ) (l1 l2 : List (ℝ × Fin m)) (r : ℝ) (u : Fin m)
    (h : u ∈ l2.map (·.2)) (F : Fin m → ℝ) :
    (absDerivatives sigma v eps (l1 ++ (r, u) :: l2) F).1 = (absDerivatives sigma v eps (l1 ++ l2) F).1 ∧
    (absDerivatives sigma v eps (l1 ++ (r, u) :: l2) F).2.1 =
      (absDerivatives sigma v eps (l1 ++ l2) F).2.1 ∧
    absLogLik sigma v eps (l1 ++ (r, u) :: l2) F = absLogLik sigma v eps (l1 ++ l2) F ∧
    absLikelihood sigma v eps (l1 ++ (r, u) :: l2) F = absLikelihood sigma v eps (l1 ++ l2) F ∧
    (absDerivatives sigma v eps (l1 ++ (r, u) :: l2) F).2.2 =
      (absDerivatives sigma v eps (l1 ++ l2) F).2.2 + absPy sigma v eps r (F u) := by
  have key : ∀ g : ℝ × Fin m → ℝ, assignVec ((l1 ++ (r, u) :: l2).map fun p => (p.2, g p)) =
      assignVec ((l1 ++ l2).map fun p => (p.2, g p)) := by
    intro g
    funext i
    rw [assignVec_eq, assignVec_eq]
    by_cases hi : i ∈ l2.map (·.2)
    · obtain ⟨a, ha, rfl⟩ := List.mem_map.1 hi
      obtain ⟨k1, b, k2, rfl, hb, hk⟩ := exists_last_split (fun p : ℝ × Fin m => p.2 = a.2) l2 ⟨a, ha, rfl⟩
      have e1 : ∀ pre : List (ℝ × Fin m), lastValue ((pre ++ (k1 ++ b :: k2)).map fun p => (p.2, g p)) a.2 =
          g b := by
        intro pre
        rw [List.map_append, List.map_append, List.map_cons, ← List.append_assoc, hb]
        refine lastValue_hit _ _ _ _ ?_
        intro e he
        obtain ⟨q, hq, rfl⟩ := List.mem_map.1 he
        exact hk q hq
      rw [show l1 ++ (r, u) :: (k1 ++ b :: k2) = (l1 ++ [(r, u)]) ++ (k1 ++ b :: k2) by simp, e1, e1]
    · have hui : u ≠ i := fun e => hi (e ▸ h)
      simp [lastValue, hui, List.filter_append, List.filter_cons]
  refine ⟨?_, ?_, ?_, ?_, ?_⟩
  · funext i j
    simp only [absDerivatives, assignDiag]
    rw [key fun p => absWdiag sigma v eps p.1 (F p.2)]
  · simp only [absDerivatives]
    rw [key fun p => absDpy sigma v eps p.1 (F p.2)]
  · simp only [absLogLik]
    rw [key fun p => absPy sigma v eps p.1 (F p.2)]
  · simp only [absLikelihood, absLogLik]
    rw [key fun p => absPy sigma v eps p.1 (F p.2)]
  · simp only [absDerivatives, List.map_append, List.map_cons, List.sum_append, List.sum_cons]
    ring

/-- Hypothesis met: a point rated 0.2 and then 0.9. -/
example : (0 : Fin 1) ∈ [((9 / 10 : ℝ), (0 : Fin 1))].map (·.2) := by simp

end C42

section C64

/-- C64: `grad_hyper` is the gradient of the beta log-likelihood in the noise level and the precision
(repeated ratings included), where no clipping is active. -/
theorem C64_grad_hyper (sigma v eps : ℝ) (hs : 0 < sigma) (hv : 0 < v) (y : List (ℝ × Fin m))
    (hy : ∀ p ∈ y, 0 < p.1 ∧ p.1 < 1) (F : Fin m → ℝ) (h : RatingsInRange sigma eps y F) :
    ∃ ds dv, absGradHyper false sigma v eps y F = [ds, dv] ∧ absGradHyper true sigma v eps y F = [dv] ∧
      HasDerivAt (fun s => betaLogLik s v y F) ds sigma ∧
      HasDerivAt (fun w => betaLogLik sigma w y F) dv v := by
  have hin := inR_of_range h
  refine ⟨_, _, rfl, rfl, ?_, ?_⟩
  · have := hasDerivAt_list_sum y (fun p s => shL p.1 v (F p.2 * isqrt2sig s))
      (fun p => absGradSigma1 sigma v eps p.1 (F p.2)) (s := sigma)
      fun p hp => hasDerivAt_shL_sigma hs.ne' hv (hin p hp)
    have he : (fun s => betaLogLik s v y F) =
        fun s => (y.map fun p => shL p.1 v (F p.2 * isqrt2sig s)).sum := by
      funext s; exact betaLogLik_eq hv hy F
    rw [he]
    exact this
  · have := hasDerivAt_list_sum y (fun p w => shL p.1 w (F p.2 * isqrt2sig sigma))
      (fun p => absGradV1 sigma v eps p.1 (F p.2)) (s := v) (by
        intro p hp
        refine (hasDerivAt_shL_v hv).congr_deriv ?_
        simp only [absGradV1, alphaBeta_of_inR (hin p hp), meanLink_of_inR (hin p hp)]
        rw [show shA v (F p.2 * isqrt2sig sigma) + shB v (F p.2 * isqrt2sig sigma) = v by
          simp [shA, shB]])
    refine this.congr_of_eventuallyEq ?_
    filter_upwards [lt_mem_nhds hv] with w hw
    exact betaLogLik_eq hw hy F

example : RatingsInRange 2 (1 / 1000) [((1 / 4 : ℝ), (0 : Fin 2)), (3 / 4, 0)] (fun _ => 0) :=
  inRange_zero 2 _ (by norm_num) _

/-- C64: the first matrix of `calc_W_dHyper` is the derivative of the returned `W` in the noise level. -/
theorem C64_W_dSigma (sigma v eps : ℝ) (hs : 0 < sigma) (hv : 0 < v) (y : List (ℝ × Fin m))
    (F : Fin m → ℝ) (h : RatingsInRange sigma eps y F) :
    ∃ D E, absWdHyper false sigma v eps y F = [D, E] ∧
      ∀ i j, HasDerivAt (fun s => (absDerivatives s v eps y F).1 i j) (D i j) sigma := by
  have hin := inR_of_range h
  refine ⟨_, _, rfl, fun i j => ?_⟩
  simp only [absW_entry, assignDiag, assignVec_eq]
  split
  · refine (hasDerivAt_lastValue y (·.2) (fun p s => absWdiag s v eps p.1 (F p.2))
      (fun p => absWdSigma1 sigma v eps p.1 (F p.2)) i sigma fun p hp => ?_).neg
    have h1 := (hasDerivAt_shW_sigma (y := p.1) hs.ne' hv (hin p hp)).neg
    refine HasDerivAt.congr_of_eventuallyEq (h1.congr_deriv (neg_neg _)) ?_
    filter_upwards [inR_eventually_sigma hs.ne' (hin p hp)] with s hs'
    rw [absWdiag_of_inR hs']
    rfl
  · exact (hasDerivAt_const sigma (0 : ℝ)).neg

/-- Gradient of a "last assignment wins" entry whose values depend on the assigned coordinate. -/
theorem grad_lastValue {ι : Type} (l : List ι) (k : ι → Fin m) (w : ι → ℝ → ℝ) (w' : ι → ℝ) (i : Fin m)
    (F : Fin m → ℝ) (h : ∀ p ∈ l, HasDerivAt (w p) (w' p) (F (k p))) :
    IsGradientAt (fun F => lastValue (l.map fun p => (k p, w p (F (k p)))) i)
      (fun a => if a = i then lastValue (l.map fun p => (k p, w' p)) i else 0) F := by
  induction l using List.reverseRecOn with
  | nil =>
    simp only [List.map_nil, lastValue, List.filter_nil, List.getLast?_nil, ite_self]
    exact grad_const_near (f := fun _ => (0 : ℝ)) (Filter.Eventually.of_forall fun _ => rfl)
  | append_singleton l e ih =>
    have ih := ih fun p hp => h p (by simp [hp])
    have he := h e (by simp)
    simp only [List.map_append, List.map_cons, List.map_nil, lastValue_concat]
    by_cases hk : k e = i
    · subst hk
      simp only [if_true]
      have hp : HasFDerivAt (fun F : Fin m → ℝ => F (k e)) (ContinuousLinearMap.proj (R := ℝ) (k e)) F :=
        (ContinuousLinearMap.proj (R := ℝ) (φ := fun _ : Fin m => ℝ) (k e)).hasFDerivAt
      have h3 := HasDerivAt.comp_hasFDerivAt (f := fun F : Fin m → ℝ => F (k e)) F he hp
      refine h3.congr_fderiv ?_
      ext v
      simp [ite_mul]
    · simpa only [hk, if_false] using ih

/-- C64: `calc_W_dF` returns exactly the negative of the derivative of `W`: the sign is that of the
third derivative of the log-likelihood, opposite to the convention of the preference probit
(`C38_W_dF_partial`) to whose result it is added. -/
theorem C64_W_dF_partial (sigma v eps : ℝ) (hs : 0 < sigma) (hv : 0 < v) (y : List (ℝ × Fin m))
    (F : Fin m → ℝ) (h : RatingsInRange sigma eps y F) (i j : Fin m) :
    IsGradientAt (fun F => (absDerivatives sigma v eps y F).1 i j)
      (fun a => -absWdF sigma v eps y F a i j) F := by
  have hin := inR_of_range h
  by_cases hij : i = j
  · subst hij
    have h1 := grad_lastValue y (·.2) (fun p x => shW p.1 (isqrt2sig sigma) v (x * isqrt2sig sigma))
      (fun p => -absWdF1 sigma v eps p.1 (F p.2)) i F
      fun p hp => hasDerivAt_shW_f hs.ne' hv (hin p hp)
    have hneg : ∀ l : List (Fin m × ℝ), -lastValue l i = lastValue (l.map fun e => (e.1, -e.2)) i := by
      intro l
      induction l using List.reverseRecOn with
      | nil => simp [lastValue]
      | append_singleton l e ih =>
        rw [List.map_append, List.map_cons, List.map_nil, lastValue_concat, lastValue_concat, ← ih]
        split <;> rfl
    have hg : (fun a => -absWdF sigma v eps y F a i i) = fun a =>
        if a = i then lastValue (y.map fun p => (p.2, -absWdF1 sigma v eps p.1 (F p.2))) i else 0 := by
      funext a
      simp only [absWdF, and_true, assignVec_eq]
      by_cases ha : a = i
      · simp only [ha, if_true]
        rw [hneg, List.map_map]
        rfl
      · simp [ha]
    rw [hg]
    refine HasFDerivAt.congr_of_eventuallyEq h1 ?_
    have hev : ∀ᶠ G in nhds F, ∀ p ∈ y, InR sigma eps (G p.2) := by
      clear h h1 hg
      induction y with
      | nil => simp
      | cons p y ih =>
        have h1 := (continuous_apply p.2).continuousAt.eventually (inR_eventually_f (hin p (by simp)))
        filter_upwards [h1, ih fun q hq => hin q (by simp [hq])] with G g1 g2 q hq
        rcases List.mem_cons.1 hq with rfl | hq
        · exact g1
        · exact g2 q hq
    filter_upwards [hev] with G hG
    rw [absW_entry, if_pos rfl, hneg, List.map_map]
    congr 1
    refine List.map_congr_left fun p hp => ?_
    simp only [Function.comp]
    rw [absWdiag_of_inR (hG p hp), neg_neg]
  · have : (fun a => -absWdF sigma v eps y F a i j) = fun _ => 0 := by
      funext a
      simp [absWdF, hij]
    rw [this]
    refine grad_const_near (Filter.Eventually.of_forall fun G => ?_)
    rw [absW_entry, absW_entry, if_neg hij, if_neg hij]

/-- C64 refuted: `calc_W_dF` is not the derivative of `W`, e.g. at latent value 0 for every rating other
than 1/2. -/
theorem C64_W_dF_false (sigma v eps : ℝ) (hs : 0 < sigma) (hv : 0 < v) (he : eps < 1 / 2) (u : Fin m)
    (y : ℝ) (hy : 0 < y ∧ y < 1) (hne : y ≠ 1 / 2) :
    ¬ IsGradientAt (fun F => (absDerivatives sigma v eps [(y, u)] F).1 u u)
      (fun a => absWdF sigma v eps [(y, u)] (fun _ => 0) a u u) (fun _ => 0) := by
  intro hcon
  have hr := inRange_zero sigma eps he [(y, u)]
  have h1 := C64_W_dF_partial sigma v eps hs hv [(y, u)] (fun _ => 0) hr u u
  have h2 := hcon.unique_entry h1 u
  have h3 : absWdF sigma v eps [(y, u)] (fun _ => 0) u u u = 0 := by linarith
  simp only [absWdF, and_self, if_true, List.map_cons, List.map_nil, assignVec_single] at h3
  have hin := inR_of_range hr (y, u) (by simp)
  have hab : shA v (0 * isqrt2sig sigma) = shB v (0 * isqrt2sig sigma) := by
    simp only [shA, shB, zero_mul, Phi_zero]; ring
  simp only [absWdF1, alphaBeta_of_inR hin, hab, absTmp] at h3
  simp only [sub_self, mul_zero, zero_div, zero_mul, add_zero, sub_zero, mul_one] at h3
  have hT : Real.log y - Real.log (1 - y) ≠ 0 := by
    have h1y : 0 < 1 - y := by linarith [hy.2]
    intro h
    have := Real.log_injOn_pos (Set.mem_Ioi.2 hy.1) (Set.mem_Ioi.2 h1y) (by linarith)
    exact hne (by linarith)
  have hpos : 0 < v / (2 * Real.sqrt 2 * sigma * sigma * sigma) * stdNormPdf 0 :=
    mul_pos (by positivity) (phi_pos 0)
  rw [sub_add_cancel, neg_mul, neg_mul, neg_eq_zero] at h3
  exact (mul_ne_zero hpos.ne' hT) h3

theorem polygamma_combination_pos :
    ∃ x0 > 0, ∀ x : ℝ, 0 < x → x < x0 → 0 < 8 * trigamma x / x + trigamma x + 3 * tetragamma x := by
  have hct := continuousAt_tetragamma (x := 1) one_pos
  obtain ⟨δ, hδ, hb⟩ := Metric.continuousAt_iff.1 hct 1 one_pos
  obtain ⟨B, hBpos, hB⟩ : ∃ B > 0, |tetragamma 1| + 1 = B := ⟨_, by positivity, rfl⟩
  refine ⟨min δ (1 / (2 * B + 1)), lt_min hδ (by positivity), fun x hx0 hlt => ?_⟩
  have t1 := trigamma_add_one hx0
  have t2 := tetragamma_add_one hx0
  have t1n := trigamma_nonneg (show 0 < x + 1 by linarith)
  have e1 : trigamma x = trigamma (x + 1) + 1 / x ^ 2 := by linarith
  have e2 : tetragamma x = tetragamma (x + 1) - 2 / x ^ 3 := by linarith
  have hdist : |tetragamma (x + 1) - tetragamma 1| < 1 := by
    have := @hb (x + 1) (by
      rw [Real.dist_eq, add_sub_cancel_right, abs_of_pos hx0]
      exact lt_of_lt_of_le hlt (min_le_left _ _))
    rwa [Real.dist_eq] at this
  have hlow : -B < tetragamma (x + 1) := by
    have h1 := abs_lt.1 hdist
    have h2 := neg_abs_le (tetragamma 1)
    linarith [h1.1]
  have hxs : x * (2 * B + 1) < 1 := by
    have := lt_of_lt_of_le hlt (min_le_right _ _)
    rwa [lt_div_iff₀ (by positivity)] at this
  have hx1 : x < 1 := by nlinarith
  have hx3 : 2 * B + 1 < 1 / x ^ 3 := by
    rw [lt_div_iff₀ (by positivity)]
    have h2 : x ^ 2 < 1 := by nlinarith
    have : x ^ 3 < x := by nlinarith
    have h3 : (2 * B + 1) * x ^ 3 < (2 * B + 1) * x := mul_lt_mul_of_pos_left this (by positivity)
    linarith
  have htot : 8 * trigamma x / x + trigamma x + 3 * tetragamma x =
      2 * (1 / x ^ 3) + 8 * trigamma (x + 1) / x + trigamma x + 3 * tetragamma (x + 1) := by
    have : 8 * trigamma x / x = 8 * (1 / x ^ 3) + 8 * trigamma (x + 1) / x := by
      rw [e1]; field_simp; ring
    rw [this, e2]; ring
  rw [htot]
  have p1 : 0 ≤ 8 * trigamma (x + 1) / x := by positivity
  have p2 := trigamma_nonneg hx0
  linarith

/-- C64 refuted: the matrix returned for the precision `v` is not the derivative of `W`: at latent value 0
this fails for all sufficiently small precisions. -/
theorem C64_W_dv_false (sigma eps : ℝ) (hs : 0 < sigma) (he : eps < 1 / 2) :
    ∃ v0 > 0, ∀ v, 0 < v → v < v0 → ∀ (u : Fin m) (y : ℝ),
      ∃ D, absWdHyper true sigma v eps [(y, u)] (fun _ => 0) = [D] ∧
        ¬ HasDerivAt (fun w => (absDerivatives sigma w eps [(y, u)] fun _ => 0).1 u u) (D u u) v := by
  obtain ⟨x0, hx0, hcomb⟩ := polygamma_combination_pos
  refine ⟨x0, hx0, fun v hv hlt u y => ⟨_, rfl, fun hcon => ?_⟩⟩
  have hin := inR_of_range (inRange_zero sigma eps he [(y, u)]) (y, u) (by simp)
  have hfun : (fun w => (absDerivatives sigma w eps [(y, u)] fun _ => 0).1 u u) =
      fun w => shW y (isqrt2sig sigma) w (0 * isqrt2sig sigma) := by
    funext w
    simp only [absDerivatives, assignDiag, if_true, List.map_cons, List.map_nil, assignVec_single,
      absWdiag_of_inR hin, neg_neg]
  rw [hfun] at hcon
  have hd := hasDerivAt_shW_v (y := y) (c := isqrt2sig sigma) (z := 0 * isqrt2sig sigma) hv
  have heq := hcon.unique hd
  simp only [assignDiag, if_true, List.map_cons, List.map_nil, assignVec_single] at heq
  have hA : shA v (0 * isqrt2sig sigma) = v / 2 := by
    simp only [shA, zero_mul, Phi_zero]; ring
  have hBb : shB v (0 * isqrt2sig sigma) = v / 2 := by
    simp only [shB, zero_mul, Phi_zero]; ring
  simp only [absWdv1, alphaBeta_of_inR hin, meanLink_of_inR hin, hA, hBb, shS] at heq
  simp only [zero_mul, zero_div, mul_zero, Phi_zero, stdNormPdf_eq, neg_zero, zero_add] at heq
  rw [sq_isqrt hs.ne'] at heq
  have hφ := phi_pos 0
  have hc := hcomb (v / 2) (by positivity) (by linarith)
  generalize trigamma (v / 2) = P1 at heq hc
  generalize tetragamma (v / 2) = P2 at heq hc
  generalize phi 0 = q at heq hφ
  have hfac : 0 < v ^ 2 * q ^ 2 / (4 * sigma ^ 2) := by positivity
  have : v ^ 2 * q ^ 2 / (4 * sigma ^ 2) * (8 * P1 / (v / 2) + P1 + 3 * P2) = 0 := by
    field_simp at heq ⊢
    linear_combination (-(v * q ^ 2)) * heq
  exact absurd this (mul_pos hfac hc).ne'

end C64

end Lop.Props
