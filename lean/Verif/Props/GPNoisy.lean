import Verif.Proofs.GPNoisy
import Verif.Props.GPLearns
import Verif.Props.FarAway
import Mathlib.Probability.Independence.InfinitePi
import Mathlib.Probability.Distributions.Uniform
import Mathlib.Probability.ProbabilityMassFunction.Integrals

/-! # C133: with random measurement errors the returned variance of `GP` bounds the mean squared error -/

namespace Lop.Props

open Spec Matrix MeasureTheory ProbabilityTheory

variable {d n : Nat} {Ω : Type*} [MeasurableSpace Ω] {μ : Measure Ω} [IsProbabilityMeasure μ]

/-- The training data after the measurements. -/
private lemma noisy_state (mean f : Pt d → ℝ) (z : Nat → Pt d) (s : Nat → ℝ) (err : Nat → Ω → ℝ) {T : Nat} (hT : 0 < T) (ω : Ω) :
    (List.range T).foldl (fun st t => gpAdd mean st [noisyMeas f z s err ω t]) none =
      some ((List.range T).map fun t => (z t, (f (z t) - mean (z t)) + err t ω, s t)) := by
  rw [gpAdd_fold mean _ hT]
  simp only [gpAdd, Option.getD_none, List.nil_append, List.map_map, Option.some.injEq]
  refine List.map_congr_left fun t _ => ?_
  simp only [Function.comp, noisyMeas]
  congr 2
  ring

/-- The variances do not depend on the measured values. -/
private lemma noisy_sigma (k : KExpr ℝ (Pt d)) (hok : AllLeaves (LeafOK (d = 1)) k) (hq : AllLeaves NoNoise k) (mean f : Pt d → ℝ)
    (z : Nat → Pt d) {s : Nat → ℝ} (hs : ∀ t, 0 < s t) (err err' : Nat → Ω → ℝ) {T : Nat} (hT : 0 < T) (X : Fin n → Pt d) (hn : 0 < n)
    {ω ω' : Ω} {p p' : GPPred n}
    (h : gpRegress (kcov k) mean ((List.range T).foldl (fun st t => gpAdd mean st [noisyMeas f z s err ω t]) none) X = .ok p)
    (h' : gpRegress (kcov k) mean ((List.range T).foldl (fun st t => gpAdd mean st [noisyMeas f z s err' ω' t]) none) X = .ok p')
    (i : Fin n) : p.sigma i = p'.sigma i := by
  obtain ⟨g, hg, -, -, -⟩ := kernel_fn k hok hq
  obtain ⟨w, hw⟩ := gp_weights hg mean T z s X i
  rw [noisy_state mean f z s _ hT] at h h'
  have hs' : ∀ y : Nat → ℝ, ∀ r ∈ (List.range T).map fun t => (z t, y t, s t), 0 ≤ r.2.2 := by
    intro y r hr
    obtain ⟨t, -, rfl⟩ := List.mem_map.1 hr
    exact (hs t).le
  obtain ⟨_, -, -, -, hp⟩ := C43_posterior k hok (quiet_of_noNoise k hq) mean _ (hs' _) X hn h
  obtain ⟨_, -, -, -, hp'⟩ := C43_posterior k hok (quiet_of_noNoise k hq) mean _ (hs' _) X hn h'
  rw [(hp i).1, (hp' i).1, (hw _ _ h).2, (hw _ _ h').2]

/-- C133, risk: if `f - mean_func` has kernel norm at most `B` and the measurements have uncorrelated errors of mean zero whose second moments are
at most the noises passed to `add`, then the returned variances do not depend on the errors, and the mean squared error of the returned mean
is at most `max(B², 1)` times the returned variance, at every predicted point. -/
theorem C133_risk (k : KExpr ℝ (Pt d)) (hok : AllLeaves (LeafOK (d = 1)) k) (hq : AllLeaves NoNoise k) (mean f : Pt d → ℝ) {B : ℝ}
    (hB : InBall k B fun x => f x - mean x) (z : Nat → Pt d) {s : Nat → ℝ} (hs : ∀ t, 0 < s t) {err : Nat → Ω → ℝ}
    (he : IsError μ s err) {T : Nat} (hT : 0 < T) (X : Fin n → Pt d) (hn : 0 < n) :
    ∃ pred : Ω → GPPred n, (∀ ω, gpRegress (kcov k) mean
        ((List.range T).foldl (fun st t => gpAdd mean st [noisyMeas f z s err ω t]) none) X = .ok (pred ω)) ∧
      ∃ v : Fin n → ℝ, (∀ ω i, (pred ω).sigma i = v i ∧ 0 ≤ v i) ∧
        ∀ i, Integrable (fun ω => (f (X i) - (pred ω).mu i) ^ 2) μ ∧
          ∫ ω, (f (X i) - (pred ω).mu i) ^ 2 ∂μ ≤ max (B ^ 2) 1 * v i := by
  obtain ⟨g, hg, hsym, hpos, hball⟩ := kernel_fn k hok hq
  set y : Ω → Nat → ℝ := fun ω t => (f (z t) - mean (z t)) + err t ω with hy
  have hst := noisy_state mean f z s err hT
  simp only [hst]
  have hs' : ∀ ω, ∀ r ∈ (List.range T).map fun t => (z t, y ω t, s t), 0 < r.2.2 := by
    intro ω r hr
    obtain ⟨t, -, rfl⟩ := List.mem_map.1 hr
    exact hs t
  have hne : ∀ ω, (List.range T).map (fun t => (z t, y ω t, s t)) ≠ [] := fun ω => by simp; omega
  choose pred hpred using fun ω => C43_returns k hok (quiet_of_noNoise k hq) mean _ (hne ω) (hs' ω) X hn
  refine ⟨pred, hpred, ?_⟩
  choose w hw using fun i => gp_weights hg mean T z s X i
  set v1 : Fin n → ℝ := fun i => g (X i) (X i) - 2 * (w i ⬝ᵥ fun j => g (X i) (z j)) +
        w i ⬝ᵥ ((Matrix.of fun a b : Fin T => g (z a) (z b)) *ᵥ w i) with hv1
  set v2 : Fin n → ℝ := fun i => ∑ j : Fin T, s j * w i j ^ 2 with hv2
  have h1 : ∀ i, 0 ≤ v1 i := fun i => hpos (X i) (fun j : Fin T => z j) (w i)
  have h2 : ∀ i, 0 ≤ v2 i := fun i => Finset.sum_nonneg fun j _ => mul_nonneg (hs j).le (sq_nonneg _)
  refine ⟨fun i => v1 i + v2 i, fun ω i => ⟨?_, add_nonneg (h1 i) (h2 i)⟩, fun i => ?_⟩
  · obtain ⟨_, -, -, -, hp⟩ := C43_posterior k hok (quiet_of_noNoise k hq) mean _ (fun r hr => (hs' ω r hr).le) X hn (hpred ω)
    rw [(hp i).1, (hw i (y ω) _ (hpred ω)).2]
  · have hb := hball B _ hB (X i) (fun j : Fin T => z j) (w i)
    set c : ℝ := f (X i) - mean (X i) - w i ⬝ᵥ fun j : Fin T => f (z j) - mean (z j) with hc
    have e : (fun ω => (f (X i) - (pred ω).mu i) ^ 2) = fun ω => (c - w i ⬝ᵥ fun t : Fin T => err t ω) ^ 2 := by
      funext ω
      congr 1
      rw [(hw i (y ω) _ (hpred ω)).1]
      have : (w i ⬝ᵥ fun t : Fin T => y ω t) =
          (w i ⬝ᵥ fun j : Fin T => f (z j) - mean (z j)) + w i ⬝ᵥ fun t : Fin T => err t ω := by
        rw [← dotProduct_add]
        rfl
      rw [this, hc]
      ring
    obtain ⟨hi, hle⟩ := error_square he (w i) c
    rw [e]
    refine ⟨hi, hle.trans ?_⟩
    rw [mul_add]
    refine add_le_add (hb.trans ?_) ?_
    · exact mul_le_mul_of_nonneg_right (le_max_left _ _) (h1 i)
    · exact le_mul_of_one_le_left (h2 i) (le_max_right _ _)

/-- C133, bands: the prediction misses `f` by more than `c` times `max(B, 1)` returned standard deviations with probability at most `1/c²`. -/
theorem C133_band (k : KExpr ℝ (Pt d)) (hok : AllLeaves (LeafOK (d = 1)) k) (hq : AllLeaves NoNoise k) (mean f : Pt d → ℝ) {B : ℝ}
    (hB : InBall k B fun x => f x - mean x) (z : Nat → Pt d) {s : Nat → ℝ} (hs : ∀ t, 0 < s t) {err : Nat → Ω → ℝ}
    (he : IsError μ s err) {T : Nat} (hT : 0 < T) (X : Fin n → Pt d) (hn : 0 < n) :
    ∃ pred : Ω → GPPred n, (∀ ω, gpRegress (kcov k) mean
        ((List.range T).foldl (fun st t => gpAdd mean st [noisyMeas f z s err ω t]) none) X = .ok (pred ω)) ∧
      ∀ i c, 0 < c → μ.real {ω | c * max |B| 1 * Real.sqrt ((pred ω).sigma i) < |f (X i) - (pred ω).mu i|} ≤ 1 / c ^ 2 := by
  obtain ⟨pred, hp, v, hv, h⟩ := C133_risk k hok hq mean f hB z hs he hT X hn
  refine ⟨pred, hp, fun i c hc => ?_⟩
  obtain ⟨hi, hle⟩ := h i
  have hM : max (B ^ 2) 1 = max |B| 1 ^ 2 := by
    rw [← sq_abs B]
    rcases le_total |B| 1 with hb | hb
    · rw [max_eq_right hb, max_eq_right (by nlinarith [abs_nonneg B])]; norm_num
    · rw [max_eq_left hb, max_eq_left (by nlinarith [abs_nonneg B])]
  have hM1 : 1 ≤ max |B| 1 := le_max_right _ _
  have hv0 : 0 ≤ v i := by
    haveI : Nonempty Ω := μ.nonempty_of_neZero
    exact (hv (Classical.arbitrary Ω) i).2
  set M := max |B| 1
  rw [hM] at hle
  have hset : {ω | c * M * Real.sqrt ((pred ω).sigma i) < |f (X i) - (pred ω).mu i|} =
      {ω | c ^ 2 * (M ^ 2 * v i) < (f (X i) - (pred ω).mu i) ^ 2} := by
    ext ω
    simp only [Set.mem_setOf_eq, (hv ω i).1]
    rw [← sq_abs (f (X i) - _), show c ^ 2 * (M ^ 2 * v i) = (c * M * Real.sqrt (v i)) ^ 2 by
      rw [mul_pow, mul_pow, Real.sq_sqrt hv0]; ring]
    exact (sq_lt_sq₀ (by positivity) (abs_nonneg _)).symm
  rw [hset]
  rcases hv0.eq_or_lt with h0 | h0
  · have hz : ∫ ω, (f (X i) - (pred ω).mu i) ^ 2 ∂μ = 0 :=
      le_antisymm (by rw [← h0] at hle; simpa using hle) (integral_nonneg fun ω => sq_nonneg _)
    have hae := (integral_eq_zero_iff_of_nonneg (fun ω => sq_nonneg (f (X i) - (pred ω).mu i)) hi).1 hz
    have : μ {ω | c ^ 2 * (M ^ 2 * v i) < (f (X i) - (pred ω).mu i) ^ 2} = 0 := by
      refine measure_mono_null (fun ω hω => ?_) hae
      simp only [Set.mem_setOf_eq, ← h0, mul_zero] at hω
      simpa using hω.ne'
    rw [measureReal_def, this]
    simp
    positivity
  · have hpos : 0 < c ^ 2 * (M ^ 2 * v i) := by positivity
    have hm := mul_meas_ge_le_integral_of_nonneg (.of_forall fun ω => sq_nonneg (f (X i) - (pred ω).mu i)) hi
      (c ^ 2 * (M ^ 2 * v i))
    have hsub : μ.real {ω | c ^ 2 * (M ^ 2 * v i) < (f (X i) - (pred ω).mu i) ^ 2} ≤
        μ.real {ω | c ^ 2 * (M ^ 2 * v i) ≤ (f (X i) - (pred ω).mu i) ^ 2} :=
      measureReal_mono (Set.setOf_subset_setOf.2 fun ω hω => hω.le)
    refine hsub.trans ?_
    rw [le_div_iff₀ (by positivity)]
    have hMv : 0 < M ^ 2 * v i := by positivity
    have := hm.trans hle
    nlinarith [this]

/-- C133, learning: if moreover the noises are bounded and the measured points come back to every neighbourhood of the predicted points again
and again, the mean squared error of the returned means tends to zero, and so do the returned variances. -/
theorem C133_learns (k : KExpr ℝ (Pt d)) (hok : AllLeaves (LeafOK (d = 1)) k) (hq : AllLeaves NoNoise k) (mean f : Pt d → ℝ) {B : ℝ}
    (hB : InBall k B fun x => f x - mean x) (z : Nat → Pt d) {s : Nat → ℝ} {S : ℝ} (hs : ∀ t, 0 < s t ∧ s t ≤ S) {err : Nat → Ω → ℝ}
    (he : IsError μ s err) (X : Fin n → Pt d) (hn : 0 < n)
    (hX : ∀ i, ∀ delta > 0, ∀ T : Nat, ∃ t ≥ T, ∀ c, |z t c - X i c| < delta) {eps : ℝ} (heps : 0 < eps) :
    ∃ T0, ∀ T ≥ T0, ∃ pred : Ω → GPPred n, (∀ ω, gpRegress (kcov k) mean
        ((List.range T).foldl (fun st t => gpAdd mean st [noisyMeas f z s err ω t]) none) X = .ok (pred ω)) ∧
      ∀ i, (∀ ω, 0 ≤ (pred ω).sigma i ∧ (pred ω).sigma i ≤ eps) ∧ Integrable (fun ω => (f (X i) - (pred ω).mu i) ^ 2) μ ∧
        ∫ ω, (f (X i) - (pred ω).mu i) ^ 2 ∂μ ≤ eps := by
  haveI : Nonempty Ω := μ.nonempty_of_neZero
  set ω0 := Classical.arbitrary Ω
  set M := max (B ^ 2) 1 with hM
  have hM1 : 1 ≤ M := le_max_right _ _
  have hE : ∀ T, misfit f ((List.range T).map (noisyMeas f z s (fun _ (_ : Ω) => 0) ω0)) ≤ 0 := by
    intro T
    rw [misfit]
    refine le_of_eq (List.sum_eq_zero fun x hx => ?_)
    simp only [List.mem_map] at hx
    obtain ⟨r, ⟨t, -, rfl⟩, rfl⟩ := hx
    simp [noisyMeas]
  obtain ⟨T0, h⟩ := C129_learns k hok hq mean f hB (noisyMeas f z s (fun _ (_ : Ω) => 0) ω0) hs hE X hn hX
    (eps := eps / M) (by positivity)
  refine ⟨T0 + 1, fun T hT => ?_⟩
  have hT0 : 0 < T := by omega
  obtain ⟨p, hp, hpe⟩ := h T (by omega)
  obtain ⟨pred, hpred, v, hv, hr⟩ := C133_risk k hok hq mean f hB z (fun t => (hs t).1) he hT0 X hn
  refine ⟨pred, hpred, fun i => ?_⟩
  have hsig : ∀ ω, (pred ω).sigma i = p.sigma i := fun ω =>
    noisy_sigma k hok hq mean f z (fun t => (hs t).1) _ _ hT0 X hn (hpred ω) hp i
  have hvi : v i = p.sigma i := by rw [← hsig ω0, (hv ω0 i).1]
  obtain ⟨-, h0, h1⟩ := hpe i
  rw [le_div_iff₀ (by positivity)] at h1
  refine ⟨fun ω => ?_, (hr i).1, (hr i).2.trans ?_⟩
  · rw [hsig ω]
    exact ⟨h0, by nlinarith⟩
  · rw [hvi]
    linarith

/-! Instance: the default kernel in one dimension, the bump measured at `0, 1, 0, 1, …`, each time with an error of `1` or `-1`, by the toss of
a coin. -/

/-- Infinitely many tosses of a fair coin. -/
noncomputable def coinTosses : Measure (Nat → Bool) := Measure.infinitePi fun _ => (PMF.uniformOfFintype Bool).toMeasure

instance : IsProbabilityMeasure coinTosses := by unfold coinTosses; infer_instance

/-- An error of `c` or `-c`, by the `t`-th toss. -/
def coinError (c : ℝ) (t : Nat) (ω : Nat → Bool) : ℝ := if ω t then c else -c

private lemma coin_measurable (c : ℝ) (t : Nat) : Measurable (coinError c t) :=
  (measurable_of_countable fun b : Bool => if b then c else -c).comp (measurable_pi_apply t)

private lemma coin_mean (c : ℝ) (t : Nat) : ∫ ω, coinError c t ω ∂coinTosses = 0 := by
  have e : ∫ ω, coinError c t ω ∂coinTosses = ∫ b, (if b then c else -c) ∂(PMF.uniformOfFintype Bool).toMeasure := by
    rw [← Measure.infinitePi_map_eval (fun _ : Nat => (PMF.uniformOfFintype Bool).toMeasure) t, integral_map]
    · rfl
    · exact (measurable_pi_apply t).aemeasurable
    · exact (measurable_of_countable _).aestronglyMeasurable
  rw [e, PMF.integral_eq_sum]
  simp

theorem coin_isError (c : ℝ) : IsError coinTosses (fun _ => c ^ 2) (coinError c) := by
  have hsq : ∀ t ω, coinError c t ω ^ 2 = c ^ 2 := fun t ω => by
    unfold coinError; split_ifs <;> ring
  have hb : ∀ t ω, ‖coinError c t ω‖ ≤ |c| := fun t ω => by
    unfold coinError; split_ifs <;> simp
  refine ⟨fun t => MemLp.of_bound (coin_measurable c t).aestronglyMeasurable |c| (.of_forall (hb t)), coin_mean c, fun t => ?_,
    fun t u htu => ?_⟩
  · simp [hsq]
  · have hind : iIndepFun (fun t ω => coinError c t ω) coinTosses :=
      iIndepFun_infinitePi (P := fun _ : Nat => (PMF.uniformOfFintype Bool).toMeasure) (X := fun _ b => if b then c else -c)
        fun _ => measurable_of_countable _
    have h := (hind.indepFun htu).integral_mul_eq_mul_integral (coin_measurable c t).aestronglyMeasurable
      (coin_measurable c u).aestronglyMeasurable
    have h2 : ∫ ω, coinError c t ω * coinError c u ω ∂coinTosses = (∫ ω, coinError c t ω ∂coinTosses) * ∫ ω, coinError c u ω ∂coinTosses := h
    rw [h2, coin_mean, zero_mul]

example {eps : ℝ} (heps : 0 < eps) :
    ∃ T0, ∀ T ≥ T0, ∃ pred : (Nat → Bool) → GPPred 2, (∀ ω, gpRegress (kcov (.leaf (.rbf 1 1 0) : KExpr ℝ (Pt 1))) (fun _ => 0)
        ((List.range T).foldl (fun st t => gpAdd (fun _ => 0) st
          [noisyMeas bumpFn (fun t => ![(t % 2 : Nat)]) (fun _ => 1 ^ 2) (coinError 1) ω t]) none) ![![0], ![1]] = .ok (pred ω)) ∧
      ∀ i, (∀ ω, 0 ≤ (pred ω).sigma i ∧ (pred ω).sigma i ≤ eps) ∧
        Integrable (fun ω => (bumpFn (![![0], ![1]] i) - (pred ω).mu i) ^ 2) coinTosses ∧
        ∫ ω, (bumpFn (![![0], ![1]] i) - (pred ω).mu i) ^ 2 ∂coinTosses ≤ eps := by
  refine C133_learns (.leaf (.rbf 1 1 0) : KExpr ℝ (Pt 1)) (by simp [AllLeaves, LeafOK]) (by simp [AllLeaves, NoNoise, noiseOf]) (fun _ => 0)
    bumpFn (B := 1) (by simpa using bump_in_ball) _ (S := 1) (fun t => by norm_num) (coin_isError 1) _ (by norm_num) (fun i => ?_) heps
  intro delta hd T
  refine ⟨2 * T + i, by omega, fun c => ?_⟩
  fin_cases i <;> fin_cases c <;> simp [hd, Nat.add_mod]

/-- C133, the noises have to be large enough: one measurement of the zero function with an error of `2` or `-2`, passed to `add` with the noise `1`
instead of `4`. The mean squared error is twice the returned variance although the function is the prior mean itself. -/
theorem C133_understated :
    ∃ pred : (Nat → Bool) → GPPred 1, (∀ ω, gpRegress (kcov (.leaf (.rbf 1 1 0) : KExpr ℝ (Pt 1))) (fun _ => 0)
        ((List.range 1).foldl (fun st t => gpAdd (fun _ => 0) st
          [noisyMeas (fun _ => 0) (fun _ => ![0]) (fun _ => 1) (coinError 2) ω t]) none) ![![0]] = .ok (pred ω)) ∧
      (∀ ω, (pred ω).sigma 0 = 1 / 2) ∧ ∫ ω, (0 - (pred ω).mu 0) ^ 2 ∂coinTosses = 1 := by
  have h : ∀ ω, ∃ p, gpRegress (kcov (.leaf (.rbf 1 1 0) : KExpr ℝ (Pt 1))) (fun _ => 0)
        ((List.range 1).foldl (fun st t => gpAdd (fun _ => 0) st
          [noisyMeas (fun _ => 0) (fun _ => ![0]) (fun _ => 1) (coinError 2) ω t]) none) ![![0]] = .ok p ∧
      p.sigma 0 = 1 / 2 ∧ p.mu 0 = coinError 2 0 ω / 2 := by
    intro ω
    have hc : kcov (.leaf (.rbf 1 1 0) : KExpr ℝ (Pt 1)) 1 1 (fun _ => ![0]) (fun _ => ![0]) = .ok (Matrix.of fun _ _ => 1) := by
      simp only [kcov, KExpr.cov, KLeaf.cov]
      rw [rbfCov_ok (by omega)]
      congr 1
      ext i j
      simp [noiseTerm_zero, rbfEval, sqDist]
    obtain ⟨p, hp, hmu, hsig⟩ := one_row (v := coinError 2 0 ω) (s := 1) hc hc hc (by norm_num)
    refine ⟨p, ?_, ?_, ?_⟩
    · rw [← hp]
      congr 1
      · simp [noisyMeas]
      · ext i j
        fin_cases i
        rfl
    · rw [hsig]
      norm_num
    · rw [hmu]
      simp
      norm_num
  choose pred hp hsig hmu using h
  refine ⟨pred, hp, hsig, ?_⟩
  have e : ∀ ω, (0 - (pred ω).mu 0) ^ 2 = 1 := fun ω => by
    rw [hmu, coinError]
    split_ifs <;> norm_num
  simp only [e]
  simp

end Lop.Props
