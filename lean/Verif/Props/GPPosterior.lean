import Verif.Proofs.GPPosterior
import Verif.Props.GPNoisy
import Mathlib.Probability.Distributions.Gaussian.HasGaussianLaw.Independence
import Mathlib.Probability.ConditionalExpectation

/-! # C134: `GP` returns the posterior of a random function with the kernel as its covariance -/

namespace Lop.Props

open Spec Matrix MeasureTheory ProbabilityTheory

variable {d n : Nat} {Ω : Type*} [mΩ : MeasurableSpace Ω] {μ : Measure Ω} [IsProbabilityMeasure μ]

omit [IsProbabilityMeasure μ] in
private lemma integrable_sum {f g : Ω → ℝ} (hf : Integrable f μ) (hg : Integrable g μ) : Integrable (fun ω => f ω + g ω) μ := hf.add hg

private lemma posterior_core (k : KExpr ℝ (Pt d)) (hok : AllLeaves (LeafOK (d = 1)) k) (hq : AllLeaves NoNoise k) {mean : Pt d → ℝ}
    {F : Pt d → Ω → ℝ} (hF : IsRandomFunction μ k mean F) (z : Nat → Pt d) {s : Nat → ℝ} (hs : ∀ t, 0 < s t) {err : Nat → Ω → ℝ}
    (he : IsMeasurementError μ mean F s err) {T : Nat} (hT : 0 < T) (X : Fin n → Pt d) (hn : 0 < n) :
    ∃ pred : Ω → GPPred n, (∀ ω, gpRegress (kcov k) mean
        ((List.range T).foldl (fun st t => gpAdd mean st [noisyMeas (fun x => F x ω) z s err ω t]) none) X = .ok (pred ω)) ∧
      (∃ C : Matrix (Fin n) (Fin n) ℝ, (∀ ω, (pred ω).cov = C ∧ ∀ i, (pred ω).sigma i = C i i) ∧
        ∀ i j, ∫ ω, (F (X i) ω - (pred ω).mu i) * (F (X j) ω - (pred ω).mu j) ∂μ = C i j) ∧
      (∃ (w : Fin n → Fin T → ℝ) (c : Fin n → ℝ), ∀ ω i, (pred ω).mu i = (w i ⬝ᵥ fun t : Fin T => F (z t) ω + err t ω) + c i) ∧
      (∀ i, MemLp (fun ω => F (X i) ω - (pred ω).mu i) 2 μ ∧ ∫ ω, (F (X i) ω - (pred ω).mu i) ∂μ = 0) ∧
      (∀ t, MemLp (fun ω => F (z t) ω + err t ω) 2 μ) ∧
      ∀ i (t : Fin T), ∫ ω, (F (X i) ω - (pred ω).mu i) * (F (z t) ω + err t ω) ∂μ = 0 := by
  obtain ⟨g, hg, hsym, -, -⟩ := kernel_fn k hok hq
  set y : Ω → Nat → ℝ := fun ω t => (F (z t) ω - mean (z t)) + err t ω with hy
  have hst : ∀ ω, (List.range T).foldl (fun st t => gpAdd mean st [noisyMeas (fun x => F x ω) z s err ω t]) none =
      some ((List.range T).map fun t => (z t, y ω t, s t)) := by
    intro ω
    rw [gpAdd_fold mean _ hT]
    simp only [gpAdd, Option.getD_none, List.nil_append, List.map_map, Option.some.injEq]
    refine List.map_congr_left fun t _ => ?_
    simp only [Function.comp, noisyMeas, hy]
    congr 2
    ring
  simp only [hst]
  have hs' : ∀ ω, ∀ r ∈ (List.range T).map fun t => (z t, y ω t, s t), 0 < r.2.2 := by
    intro ω r hr
    obtain ⟨t, -, rfl⟩ := List.mem_map.1 hr
    exact hs t
  have hne : ∀ ω, (List.range T).map (fun t => (z t, y ω t, s t)) ≠ [] := fun ω => by simp; omega
  choose pred hpred using fun ω => C43_returns k hok (quiet_of_noNoise k hq) mean _ (hne ω) (hs' ω) X hn
  refine ⟨pred, hpred, ?_⟩
  set D : Matrix (Fin T) (Fin T) ℝ := (Matrix.of fun a b : Fin T => g (z a) (z b)) + diagonal fun j : Fin T => s j with hD
  set b : Fin n → Fin T → ℝ := fun i t => g (X i) (z t) with hb
  have hlin := fun ω => gp_linear hg (hpred ω) hD
  haveI : Nonempty Ω := μ.nonempty_of_neZero
  have hDp : D.PosDef := (hlin (Classical.arbitrary Ω)).1
  -- covariances of the function
  have hcov : ∀ x x', ∫ ω, (F x ω - mean x) * (F x' ω - mean x') ∂μ = g x x' := by
    intro x x'
    obtain ⟨c, hc⟩ := cov_returns k ![x, x'] ![x, x'] (by norm_num)
    have h1 := hF.cov _ c hc 0 1
    have h2 := hg _ _ c hc 0 1
    simp only [Matrix.cons_val_zero, Matrix.cons_val_one] at h1 h2
    rw [h1, h2]
  have hFc : ∀ x, MemLp (fun ω => F x ω - mean x) 2 μ := fun x => (hF.square x).sub (memLp_const _)
  have hFc0 : ∀ x, ∫ ω, (F x ω - mean x) ∂μ = 0 := fun x => by
    rw [integral_sub ((hF.square x).integrable (by norm_num)) (integrable_const _), hF.centre]
    simp
  set A : Fin n → Ω → ℝ := fun i ω => F (X i) ω - mean (X i) with hA
  set U : Fin T → Ω → ℝ := fun t ω => y ω t with hU
  have hUm : ∀ t, MemLp (U t) 2 μ := fun t => (hFc (z t)).add (he.square t)
  have hU0 : ∀ t, ∫ ω, U t ω ∂μ = 0 := fun t => by
    simp only [hU, hy]
    rw [integral_add ((hFc _).integrable (by norm_num)) ((he.square _).integrable (by norm_num)), hFc0, he.centre, add_zero]
  have hAU : ∀ i t, ∫ ω, A i ω * U t ω ∂μ = b i t := by
    intro i t
    have e : ∫ ω, A i ω * U t ω ∂μ = ∫ ω, (F (X i) ω - mean (X i)) * (F (z t) ω - mean (z t)) ∂μ +
        ∫ ω, (F (X i) ω - mean (X i)) * err t ω ∂μ := by
      rw [← integral_add (memLp_mul (hFc _) (hFc _)) (memLp_mul (hFc _) (he.square _))]
      exact integral_congr_ae (.of_forall fun ω => by simp only [hA, hU, hy]; ring)
    rw [e, hcov, he.free, add_zero]
  have hUU : ∀ t u, ∫ ω, U t ω * U u ω ∂μ = D t u := by
    intro t u
    have e : ∫ ω, U t ω * U u ω ∂μ = (∫ ω, (F (z t) ω - mean (z t)) * (F (z u) ω - mean (z u)) ∂μ +
        ∫ ω, (F (z t) ω - mean (z t)) * err u ω ∂μ) + (∫ ω, (F (z u) ω - mean (z u)) * err t ω ∂μ + ∫ ω, err t ω * err u ω ∂μ) := by
      rw [← integral_add (memLp_mul (hFc _) (hFc _)) (memLp_mul (hFc _) (he.square _)),
        ← integral_add (memLp_mul (hFc _) (he.square _)) (memLp_mul (he.square _) (he.square _)),
        ← integral_add (integrable_sum (memLp_mul (hFc _) (hFc _)) (memLp_mul (hFc _) (he.square _)))
          (integrable_sum (memLp_mul (hFc _) (he.square _)) (memLp_mul (he.square _) (he.square _)))]
      exact integral_congr_ae (.of_forall fun ω => by simp only [hU, hy]; ring)
    rw [e, hcov, he.free, he.free, hD, Matrix.add_apply, Matrix.of_apply, diagonal_apply]
    by_cases htu : t = u
    · subst htu
      rw [he.size]; simp
    · rw [he.apart t u fun h => htu (Fin.ext h), if_neg htu]; simp
  have hR : ∀ i ω, F (X i) ω - (pred ω).mu i = A i ω - (D⁻¹ *ᵥ b i) ⬝ᵥ fun t => U t ω := by
    intro i ω
    rw [(hlin ω).2.1 i]
    simp only [hA, hb, hU]
    ring
  obtain ⟨h1, h2, h3⟩ := residual_facts (hA := fun i => hFc (X i)) (hU := hUm) hDp hAU hUU
    (R := fun i ω => F (X i) ω - (pred ω).mu i) hR
  have hR0 : ∀ i, ∫ ω, (F (X i) ω - (pred ω).mu i) ∂μ = 0 := by
    intro i
    simp only [hR]
    rw [integral_sub ((hFc (X i)).integrable (by norm_num)) ((memLp_comb hUm _).integrable (by norm_num)), hFc0]
    simp only [dotProduct]
    rw [integral_finsetSum _ fun t _ => ((hUm t).integrable (by norm_num)).const_mul _]
    simp [integral_const_mul, hU0]
  refine ⟨⟨Matrix.of fun i j => g (X i) (X j) - (D⁻¹ *ᵥ b i) ⬝ᵥ b j, fun ω => ?_, fun i j => ?_⟩,
    ⟨fun i => D⁻¹ *ᵥ b i, fun i => mean (X i) - (D⁻¹ *ᵥ b i) ⬝ᵥ fun t : Fin T => mean (z t), fun ω i => ?_⟩,
    fun i => ⟨h1 i, hR0 i⟩, fun t => (hF.square _).add (he.square _), fun i t => ?_⟩
  · have hc : (pred ω).cov = Matrix.of fun i j => g (X i) (X j) - (D⁻¹ *ᵥ b i) ⬝ᵥ b j := by
      ext i j
      rw [(hlin ω).2.2 i j]
      rfl
    refine ⟨hc, fun i => ?_⟩
    obtain ⟨_, -, -, -, hp⟩ := C43_posterior k hok (quiet_of_noNoise k hq) mean _ (fun r hr => (hs' ω r hr).le) X hn (hpred ω)
    rw [(hp i).1, hc]
  · rw [h3 i j, Matrix.of_apply]
    congr 1
    exact hcov _ _
  · rw [(hlin ω).2.1 i]
    have e : (fun t : Fin T => F (z t) ω + err t ω) = (fun t : Fin T => y ω t) + fun t : Fin T => mean (z t) := by
      funext t
      simp only [hy, Pi.add_apply]
      ring
    rw [e, dotProduct_add]
    simp only [hb]
    ring
  · have e : ∫ ω, (F (X i) ω - (pred ω).mu i) * (F (z t) ω + err t ω) ∂μ =
        ∫ ω, (F (X i) ω - (pred ω).mu i) * U t ω ∂μ + ∫ ω, mean (z t) * (F (X i) ω - (pred ω).mu i) ∂μ := by
      rw [← integral_add (memLp_mul (h1 i) (hUm t)) (((h1 i).integrable (by norm_num)).const_mul _)]
      exact integral_congr_ae (.of_forall fun ω => by simp only [hU, hy]; ring)
    rw [e, h2, integral_const_mul, hR0]
    simp

/-- C134, second moments: if `f` is a random function with mean `mean_func` and the kernel as its covariance, measured with uncorrelated errors
whose variances are the noises passed to `add`, then the returned means are unbiased, and the returned covariance matrix is exactly
the covariance matrix of their errors. It does not depend on the measured values. -/
theorem C134_covariance (k : KExpr ℝ (Pt d)) (hok : AllLeaves (LeafOK (d = 1)) k) (hq : AllLeaves NoNoise k) {mean : Pt d → ℝ}
    {F : Pt d → Ω → ℝ} (hF : IsRandomFunction μ k mean F) (z : Nat → Pt d) {s : Nat → ℝ} (hs : ∀ t, 0 < s t) {err : Nat → Ω → ℝ}
    (he : IsMeasurementError μ mean F s err) {T : Nat} (hT : 0 < T) (X : Fin n → Pt d) (hn : 0 < n) :
    ∃ pred : Ω → GPPred n, (∀ ω, gpRegress (kcov k) mean
        ((List.range T).foldl (fun st t => gpAdd mean st [noisyMeas (fun x => F x ω) z s err ω t]) none) X = .ok (pred ω)) ∧
      (∀ i, Integrable (fun ω => F (X i) ω - (pred ω).mu i) μ ∧ ∫ ω, (F (X i) ω - (pred ω).mu i) ∂μ = 0) ∧
      ∃ C : Matrix (Fin n) (Fin n) ℝ, (∀ ω, (pred ω).cov = C ∧ ∀ i, (pred ω).sigma i = C i i) ∧
        ∀ i j, Integrable (fun ω => (F (X i) ω - (pred ω).mu i) * (F (X j) ω - (pred ω).mu j)) μ ∧
          ∫ ω, (F (X i) ω - (pred ω).mu i) * (F (X j) ω - (pred ω).mu j) ∂μ = C i j := by
  obtain ⟨pred, hp, ⟨C, hC, hCi⟩, -, hm, -, -⟩ := posterior_core k hok hq hF z hs he hT X hn
  exact ⟨pred, hp, fun i => ⟨(hm i).1.integrable (by norm_num), (hm i).2⟩, C, hC,
    fun i j => ⟨memLp_mul (hm i).1 (hm j).1, hCi i j⟩⟩

/-- C134, optimality: no other affine function of the measured values has a smaller mean squared error than the returned mean. -/
theorem C134_best (k : KExpr ℝ (Pt d)) (hok : AllLeaves (LeafOK (d = 1)) k) (hq : AllLeaves NoNoise k) {mean : Pt d → ℝ}
    {F : Pt d → Ω → ℝ} (hF : IsRandomFunction μ k mean F) (z : Nat → Pt d) {s : Nat → ℝ} (hs : ∀ t, 0 < s t) {err : Nat → Ω → ℝ}
    (he : IsMeasurementError μ mean F s err) {T : Nat} (hT : 0 < T) (X : Fin n → Pt d) (hn : 0 < n) :
    ∃ pred : Ω → GPPred n, (∀ ω, gpRegress (kcov k) mean
        ((List.range T).foldl (fun st t => gpAdd mean st [noisyMeas (fun x => F x ω) z s err ω t]) none) X = .ok (pred ω)) ∧
      ∀ i (a : Fin T → ℝ) (c : ℝ), ∫ ω, (F (X i) ω - (pred ω).mu i) ^ 2 ∂μ ≤
        ∫ ω, (F (X i) ω - (∑ t : Fin T, a t * (F (z t) ω + err t ω) + c)) ^ 2 ∂μ := by
  obtain ⟨pred, hp, -, ⟨w, c0, hw⟩, hm, hY, ho⟩ := posterior_core k hok hq hF z hs he hT X hn
  refine ⟨pred, hp, fun i a c => ?_⟩
  set R : Ω → ℝ := fun ω => F (X i) ω - (pred ω).mu i with hR
  set Y : Fin T → Ω → ℝ := fun t ω => F (z t) ω + err t ω with hYd
  have hYm : ∀ t, MemLp (Y t) 2 μ := fun t => hY t
  have hRm : MemLp R 2 μ := (hm i).1
  set V : Ω → ℝ := fun ω => ((w i - a) ⬝ᵥ fun t => Y t ω) + (c0 i - c) with hV
  have hVm : MemLp V 2 μ := (memLp_comb hYm _).add (memLp_const _)
  have e : (fun ω => (F (X i) ω - (∑ t : Fin T, a t * (F (z t) ω + err t ω) + c)) ^ 2) = fun ω => (R ω * R ω + 2 * (R ω * V ω)) + V ω * V ω := by
    funext ω
    have : F (X i) ω - (∑ t : Fin T, a t * (F (z t) ω + err t ω) + c) = R ω + V ω := by
      simp only [hR, hV, hw, sub_dotProduct, hYd]
      simp only [dotProduct]
      ring
    rw [this]
    ring
  have hRV : ∫ ω, R ω * V ω ∂μ = 0 := by
    have e2 : ∫ ω, R ω * V ω ∂μ = ∫ ω, R ω * ((w i - a) ⬝ᵥ fun t => Y t ω) ∂μ + ∫ ω, (c0 i - c) * R ω ∂μ := by
      rw [← integral_add (memLp_mul hRm (memLp_comb hYm _)) ((hRm.integrable (by norm_num)).const_mul _)]
      exact integral_congr_ae (.of_forall fun ω => by simp only [hV]; ring)
    rw [e2, integral_mul_comb hRm hYm, integral_const_mul, (hm i).2]
    have : (fun t => ∫ ω, R ω * Y t ω ∂μ) = 0 := funext fun t => ho i t
    rw [this]
    simp
  rw [e, integral_add (integrable_sum (memLp_mul hRm hRm) ((memLp_mul hRm hVm).const_mul 2)) (memLp_mul hVm hVm),
    integral_add (memLp_mul hRm hRm) ((memLp_mul hRm hVm).const_mul 2), integral_const_mul, hRV]
  have hV0 : 0 ≤ ∫ ω, V ω * V ω ∂μ := integral_nonneg fun ω => mul_self_nonneg _
  simp only [sq]
  linarith

/-- C134, posterior: if moreover the function at the predicted points and the measured values are jointly Gaussian, then the errors of the returned
means are Gaussian and independent of the measured values; with C134_covariance, given the measured values the function at the predicted points is
distributed as the Gaussian with the returned mean and covariance. -/
theorem C134_posterior (k : KExpr ℝ (Pt d)) (hok : AllLeaves (LeafOK (d = 1)) k) (hq : AllLeaves NoNoise k) {mean : Pt d → ℝ}
    {F : Pt d → Ω → ℝ} (hF : IsRandomFunction μ k mean F) (z : Nat → Pt d) {s : Nat → ℝ} (hs : ∀ t, 0 < s t) {err : Nat → Ω → ℝ}
    (he : IsMeasurementError μ mean F s err) {T : Nat} (hT : 0 < T) (X : Fin n → Pt d) (hn : 0 < n)
    (hG : HasGaussianLaw (fun ω => (fun i => F (X i) ω, fun t : Fin T => F (z t) ω + err t ω)) μ) :
    ∃ pred : Ω → GPPred n, (∀ ω, gpRegress (kcov k) mean
        ((List.range T).foldl (fun st t => gpAdd mean st [noisyMeas (fun x => F x ω) z s err ω t]) none) X = .ok (pred ω)) ∧
      HasGaussianLaw (fun ω i => F (X i) ω - (pred ω).mu i) μ ∧
      IndepFun (fun ω i => F (X i) ω - (pred ω).mu i) (fun ω (t : Fin T) => F (z t) ω + err t ω) μ := by
  obtain ⟨pred, hp, -, ⟨w, c0, hw⟩, hm, hY, ho⟩ := posterior_core k hok hq hF z hs he hT X hn
  refine ⟨pred, hp, ?_⟩
  set Y : Fin T → Ω → ℝ := fun t ω => F (z t) ω + err t ω with hYd
  set L0 : ((Fin n → ℝ) × (Fin T → ℝ)) →ₗ[ℝ] ((Fin n → ℝ) × (Fin T → ℝ)) :=
    (LinearMap.fst ℝ _ _ - (Matrix.mulVecLin (Matrix.of w)).comp (LinearMap.snd ℝ _ _)).prod (LinearMap.snd ℝ _ _) with hL0
  set Lr : Fin n → Ω → ℝ := fun i ω => F (X i) ω - w i ⬝ᵥ fun t => Y t ω with hLr
  have hGL : HasGaussianLaw (fun ω => (fun i => Lr i ω, fun t => Y t ω)) μ := by
    have := hG.map_fun (LinearMap.toContinuousLinearMap L0)
    exact this
  have hRL : ∀ i ω, F (X i) ω - (pred ω).mu i = Lr i ω - c0 i := fun i ω => by
    rw [hw ω i]; simp only [hLr]; ring
  have hLm : ∀ i, MemLp (Lr i) 2 μ := fun i => (hF.square _).sub (memLp_comb (fun t => hY t) _)
  have hcov : ∀ i t, cov[Lr i, Y t; μ] = 0 := by
    intro i t
    have e : Lr i = fun ω => (F (X i) ω - (pred ω).mu i) + c0 i := funext fun ω => by rw [hRL]; ring
    rw [e, covariance_add_const_left ((hm i).1.integrable (by norm_num)), covariance_eq_sub (hm i).1 (hY t), (hm i).2]
    have := ho i t
    simp only [zero_mul, sub_zero]
    exact this
  have hind := hGL.indepFun_of_covariance_eval hcov
  have hmeas : Measurable fun v : Fin n → ℝ => fun i => v i - c0 i := by fun_prop
  have hfun : (fun ω i => F (X i) ω - (pred ω).mu i) = (fun v : Fin n → ℝ => fun i => v i - c0 i) ∘ fun ω i => Lr i ω := by
    funext ω i
    exact hRL i ω
  constructor
  · have h := hGL.fst
    haveI := h.isGaussian_map
    refine ⟨?_⟩
    have e : (fun v : Fin n → ℝ => fun i => v i - c0 i) = fun v => v + (-c0) := by
      funext v i; simp [sub_eq_add_neg]
    rw [hfun, ← AEMeasurable.map_map_of_aemeasurable hmeas.aemeasurable h.aemeasurable, e]
    infer_instance
  · rw [hfun]
    exact hind.comp hmeas measurable_id

/-- C134, conditional expectation: in the Gaussian case the returned mean is the conditional expectation of the function given the measured values, and so
the best prediction among all functions of them. -/
theorem C134_conditional (k : KExpr ℝ (Pt d)) (hok : AllLeaves (LeafOK (d = 1)) k) (hq : AllLeaves NoNoise k) {mean : Pt d → ℝ}
    {F : Pt d → Ω → ℝ} (hFm : ∀ x, Measurable (F x)) (hF : IsRandomFunction μ k mean F) (z : Nat → Pt d) {s : Nat → ℝ} (hs : ∀ t, 0 < s t)
    {err : Nat → Ω → ℝ} (hem : ∀ t, Measurable (err t)) (he : IsMeasurementError μ mean F s err) {T : Nat} (hT : 0 < T) (X : Fin n → Pt d)
    (hn : 0 < n) (hG : HasGaussianLaw (fun ω => (fun i => F (X i) ω, fun t : Fin T => F (z t) ω + err t ω)) μ) :
    ∃ pred : Ω → GPPred n, (∀ ω, gpRegress (kcov k) mean
        ((List.range T).foldl (fun st t => gpAdd mean st [noisyMeas (fun x => F x ω) z s err ω t]) none) X = .ok (pred ω)) ∧
      ∀ i, μ[F (X i) | MeasurableSpace.comap (fun ω (t : Fin T) => F (z t) ω + err t ω) inferInstance] =ᵐ[μ] fun ω => (pred ω).mu i := by
  obtain ⟨pred, hp, -, hind⟩ := C134_posterior k hok hq hF z hs he hT X hn hG
  obtain ⟨pred', hp', -, ⟨w, c0, hw⟩, hm, hY, ho⟩ := posterior_core k hok hq hF z hs he hT X hn
  have hpp : pred' = pred := by
    funext ω
    have := (hp' ω).symm.trans (hp ω)
    exact Except.ok.inj this
  subst hpp
  refine ⟨pred', hp, fun i => ?_⟩
  set Y : Ω → Fin T → ℝ := fun ω t => F (z t) ω + err t ω with hYd
  have hYm : Measurable Y := measurable_pi_lambda _ fun t => (hFm _).add (hem _)
  set mu : Ω → ℝ := fun ω => (pred' ω).mu i with hmu
  have hmuY : mu = (fun v : Fin T → ℝ => w i ⬝ᵥ v + c0 i) ∘ Y := funext fun ω => hw ω i
  have hvm : Measurable fun v : Fin T → ℝ => w i ⬝ᵥ v + c0 i := by
    simp only [dotProduct]
    fun_prop
  have hmuM : Measurable mu := by
    rw [hmuY]
    exact hvm.comp hYm
  set R : Ω → ℝ := fun ω => F (X i) ω - mu ω with hR
  have hRM : Measurable R := (hFm _).sub hmuM
  have hRi : Integrable R μ := (hm i).1.integrable (by norm_num)
  have hmui : Integrable mu μ := by
    have : mu = fun ω => F (X i) ω - R ω := by funext ω; simp only [hR]; ring
    rw [this]
    exact ((hF.square _).integrable (by norm_num)).sub hRi
  have hindR : IndepFun R Y μ := hind.comp (φ := fun v : Fin n → ℝ => v i) (ψ := id) (by fun_prop) measurable_id
  have hsum : F (X i) = R + mu := by funext ω; simp [hR]
  rw [hsum]
  set m := MeasurableSpace.comap Y inferInstance with hmd
  have hle : m ≤ mΩ := hYm.comap_le
  have hmum : StronglyMeasurable[m] mu := by
    rw [hmuY]
    exact (hvm.comp (comap_measurable Y)).stronglyMeasurable
  have hzero : μ[R | m] =ᵐ[μ] fun _ => ∫ ω, R ω ∂μ :=
    condExp_indep_eq hRM.comap_le hle (comap_measurable R).stronglyMeasurable hindR
  have h1 := condExp_add hRi hmui m
  have h2 : μ[mu | m] = mu := condExp_of_stronglyMeasurable hle hmum hmui
  filter_upwards [h1, hzero] with ω a1 a2
  rw [a1, Pi.add_apply, a2, h2]
  have : ∫ ω, R ω ∂μ = 0 := (hm i).2
  rw [this, zero_add]

/-- C134, quantiles: in the Gaussian case `mean + a sqrt(variance)`, the bound `UCBLearner(alpha=a)` ranks candidates by, is the `Φ(a)`-quantile of the
posterior: whatever was measured, the function is below it with probability `Φ(a)`. -/
theorem C134_quantile (k : KExpr ℝ (Pt d)) (hok : AllLeaves (LeafOK (d = 1)) k) (hq : AllLeaves NoNoise k) {mean : Pt d → ℝ}
    {F : Pt d → Ω → ℝ} (hF : IsRandomFunction μ k mean F) (z : Nat → Pt d) {s : Nat → ℝ} (hs : ∀ t, 0 < s t) {err : Nat → Ω → ℝ}
    (he : IsMeasurementError μ mean F s err) {T : Nat} (hT : 0 < T) (X : Fin n → Pt d) (hn : 0 < n)
    (hG : HasGaussianLaw (fun ω => (fun i => F (X i) ω, fun t : Fin T => F (z t) ω + err t ω)) μ) :
    ∃ pred : Ω → GPPred n, (∀ ω, gpRegress (kcov k) mean
        ((List.range T).foldl (fun st t => gpAdd mean st [noisyMeas (fun x => F x ω) z s err ω t]) none) X = .ok (pred ω)) ∧
      ∀ i, (∀ ω, 0 < (pred ω).sigma i) → ∀ (a : ℝ) (S : Set (Fin T → ℝ)), MeasurableSet S →
        μ.real {ω | F (X i) ω ≤ (pred ω).mu i + a * Real.sqrt ((pred ω).sigma i) ∧ (fun t : Fin T => F (z t) ω + err t ω) ∈ S} =
          Phi a * μ.real {ω | (fun t : Fin T => F (z t) ω + err t ω) ∈ S} := by
  obtain ⟨pred, hp, hGR, hind⟩ := C134_posterior k hok hq hF z hs he hT X hn hG
  obtain ⟨pred', hp', ⟨C, hC, hCi⟩, -, hm, -, -⟩ := posterior_core k hok hq hF z hs he hT X hn
  have hpp : pred' = pred := by
    funext ω
    exact Except.ok.inj ((hp' ω).symm.trans (hp ω))
  subst hpp
  refine ⟨pred', hp, fun i hpos a S hS => ?_⟩
  haveI : Nonempty Ω := μ.nonempty_of_neZero
  have hv : 0 < C i i := by rw [← (hC (Classical.arbitrary Ω)).2 i]; exact hpos _
  set R : Ω → ℝ := fun ω => F (X i) ω - (pred' ω).mu i with hR
  have hRG : HasGaussianLaw R μ := hGR.eval i
  have hRv : Var[R; μ] = C i i := by
    rw [variance_eq_integral hRG.aemeasurable, (hm i).2, ← hCi i i]
    simp only [sub_zero, sq]
    rfl
  have hmap : μ.map R = gaussianReal 0 (C i i).toNNReal := by
    rw [hRG.map_eq_gaussianReal, hRv, (hm i).2]
  have hindR : IndepFun R (fun ω (t : Fin T) => F (z t) ω + err t ω) μ :=
    hind.comp (φ := fun v : Fin n → ℝ => v i) (ψ := id) (by fun_prop) measurable_id
  have h1 := hindR.measure_inter_preimage_eq_mul (Set.Iic (a * Real.sqrt (C i i))) S measurableSet_Iic hS
  have hset : {ω | F (X i) ω ≤ (pred' ω).mu i + a * Real.sqrt ((pred' ω).sigma i) ∧ (fun t : Fin T => F (z t) ω + err t ω) ∈ S} =
      R ⁻¹' Set.Iic (a * Real.sqrt (C i i)) ∩ (fun ω (t : Fin T) => F (z t) ω + err t ω) ⁻¹' S := by
    ext ω
    simp only [Set.mem_setOf_eq, Set.mem_inter_iff, Set.mem_preimage, Set.mem_Iic, hR, (hC ω).2 i]
    constructor
    · rintro ⟨h, h'⟩; exact ⟨by linarith, h'⟩
    · rintro ⟨h, h'⟩; exact ⟨by linarith, h'⟩
  have hPhi : μ.real (R ⁻¹' Set.Iic (a * Real.sqrt (C i i))) = Phi a := by
    have e : μ.real (R ⁻¹' Set.Iic (a * Real.sqrt (C i i))) = (μ.map R).real (Set.Iic (a * Real.sqrt (C i i))) := by
      rw [measureReal_def, measureReal_def, Measure.map_apply_of_aemeasurable hRG.aemeasurable measurableSet_Iic]
    have hsc : gaussianReal 0 (C i i).toNNReal = (gaussianReal 0 1).map fun x => Real.sqrt (C i i) * x := by
      rw [gaussianReal_map_const_mul]
      congr 1
      · simp
      · ext
        simp [Real.sq_sqrt hv.le, hv.le]
    rw [e, hmap, hsc, measureReal_def, Measure.map_apply (by fun_prop) measurableSet_Iic, Phi, measureReal_def]
    congr 2
    ext x
    simp only [Set.mem_preimage, Set.mem_Iic]
    rw [mul_comm a]
    exact mul_le_mul_iff_right₀ (Real.sqrt_pos.2 hv)
  rw [hset, measureReal_def, h1, ENNReal.toReal_mul]
  rw [← hPhi]
  rfl

/-! Instance: a line through the origin with a standard Gaussian slope, the kernel `LinearKern(1, 0, 0)`, measured with independent standard Gaussian
errors. -/

/-- Infinitely many independent standard Gaussian numbers. -/
noncomputable def gaussDraws : Measure (Nat → ℝ) := Measure.infinitePi fun _ => gaussianReal 0 1

instance : IsProbabilityMeasure gaussDraws := by unfold gaussDraws; infer_instance

private lemma draw_law (t : Nat) : HasGaussianLaw (fun ω : Nat → ℝ => ω t) gaussDraws := by
  refine ⟨?_⟩
  have := Measure.infinitePi_map_eval (fun _ : Nat => gaussianReal 0 1) t
  rw [gaussDraws]
  change IsGaussian (Measure.map (fun ω : Nat → ℝ => ω t) _)
  rw [this]
  infer_instance

private lemma draws_indep : iIndepFun (fun (t : Nat) (ω : Nat → ℝ) => ω t) gaussDraws :=
  iIndepFun_infinitePi (P := fun _ : Nat => gaussianReal 0 1) (X := fun _ x => x) fun _ => measurable_id

private lemma draw_moment (f : ℝ → ℝ) (hf : Measurable f) (t : Nat) : ∫ ω, f (ω t) ∂gaussDraws = ∫ x, f x ∂gaussianReal 0 1 := by
  have := Measure.infinitePi_map_eval (fun _ : Nat => gaussianReal 0 1) t
  rw [← this, integral_map (measurable_pi_apply t).aemeasurable hf.aestronglyMeasurable]
  rfl

private lemma draw_mean (t : Nat) : ∫ ω, ω t ∂gaussDraws = 0 := by
  rw [draw_moment (fun x => x) measurable_id]
  simp

private lemma draw_square (t : Nat) : ∫ ω, ω t * ω t ∂gaussDraws = 1 := by
  rw [draw_moment (fun x => x * x) (by fun_prop)]
  have h := variance_id_gaussianReal (μ := 0) (v := 1)
  rw [variance_eq_integral (by fun_prop)] at h
  simpa [sq] using h

private lemma draw_apart {t u : Nat} (h : t ≠ u) : ∫ ω, ω t * ω u ∂gaussDraws = 0 := by
  have := (draws_indep.indepFun h).integral_mul_eq_mul_integral (measurable_pi_apply t).aestronglyMeasurable
    (measurable_pi_apply u).aestronglyMeasurable
  have h2 : ∫ ω, ω t * ω u ∂gaussDraws = (∫ ω, ω t ∂gaussDraws) * ∫ ω, ω u ∂gaussDraws := this
  rw [h2, draw_mean, zero_mul]

theorem line_random : IsRandomFunction gaussDraws (.leaf (.linear 1 0 0) : KExpr ℝ (Pt 1)) (fun _ => 0) fun x ω => ω 0 * x 0 where
  square x := (draw_law 0).memLp_two.mul_const _
  centre x := by rw [integral_mul_const, draw_mean, zero_mul]
  cov X c hc i j := by
    have e : ∫ ω, (ω 0 * X i 0 - 0) * (ω 0 * X j 0 - 0) ∂gaussDraws = X i 0 * X j 0 := by
      have : (fun ω : Nat → ℝ => (ω 0 * X i 0 - 0) * (ω 0 * X j 0 - 0)) = fun ω => (X i 0 * X j 0) * (ω 0 * ω 0) := by
        funext ω; ring
      rw [this, integral_const_mul, draw_square, mul_one]
    rw [e]
    simp only [KExpr.cov, KLeaf.cov] at hc
    cases hc
    simp

theorem line_error : IsMeasurementError gaussDraws (fun _ : Pt 1 => 0) (fun x ω => ω 0 * x 0) (fun _ => 1) fun t ω => ω (t + 1) where
  square t := (draw_law _).memLp_two
  centre t := draw_mean _
  size t := draw_square _
  apart t u h := draw_apart (by omega)
  free x t := by
    have : (fun ω : Nat → ℝ => (ω 0 * x 0 - 0) * ω (t + 1)) = fun ω => x 0 * (ω 0 * ω (t + 1)) := by
      funext ω; ring
    rw [this, integral_const_mul, draw_apart (by omega), mul_zero]

theorem line_gauss (z : Nat → Pt 1) (T : Nat) (X : Fin n → Pt 1) :
    HasGaussianLaw (fun ω : Nat → ℝ => (fun i => ω 0 * X i 0, fun t : Fin T => ω 0 * z t 0 + ω (t + 1))) gaussDraws := by
  have h : HasGaussianLaw (fun (ω : Nat → ℝ) (j : Fin (T + 1)) => ω j) gaussDraws :=
    (draws_indep.precomp Fin.val_injective).hasGaussianLaw fun j => draw_law j
  set L : (Fin (T + 1) → ℝ) →ₗ[ℝ] ((Fin n → ℝ) × (Fin T → ℝ)) :=
    (LinearMap.pi fun i => (X i 0) • LinearMap.proj 0).prod (LinearMap.pi fun t => (z t 0) • LinearMap.proj 0 + LinearMap.proj t.succ) with hL
  have := h.map_fun (LinearMap.toContinuousLinearMap L)
  refine this.congr (.of_forall fun ω => ?_)
  simp only [hL, LinearMap.coe_toContinuousLinearMap', LinearMap.prod_apply, Pi.prod]
  ext i
  · simp [mul_comm]
  · simp [mul_comm]

example : ∃ pred : (Nat → ℝ) → GPPred 2, (∀ ω, gpRegress (kcov (.leaf (.linear 1 0 0) : KExpr ℝ (Pt 1))) (fun _ => 0)
      ((List.range 3).foldl (fun st t => gpAdd (fun _ => 0) st
        [noisyMeas (fun x => ω 0 * x 0) (fun t => ![(t : ℝ)]) (fun _ => 1) (fun t ω => ω (t + 1)) ω t]) none) ![![1], ![5]] = .ok (pred ω)) ∧
    HasGaussianLaw (fun ω i => ω 0 * (![![1], ![5]] : Fin 2 → Pt 1) i 0 - (pred ω).mu i) gaussDraws ∧
    IndepFun (fun ω i => ω 0 * (![![1], ![5]] : Fin 2 → Pt 1) i 0 - (pred ω).mu i)
      (fun ω (t : Fin 3) => ω 0 * (![(t : ℝ)] : Pt 1) 0 + ω (t + 1)) gaussDraws :=
  C134_posterior (.leaf (.linear 1 0 0) : KExpr ℝ (Pt 1)) (by simp [AllLeaves, LeafOK]) (by simp [AllLeaves, NoNoise, noiseOf]) line_random
    (fun t => ![(t : ℝ)]) (fun _ => one_pos) line_error (by norm_num) _ (by norm_num) (line_gauss (fun t => ![(t : ℝ)]) 3 ![![1], ![5]])

/-- One measurement at 1 of such a line: the slope is below `mean + 2 sqrt(variance)` with probability `Φ(2)`, also among the cases in which the measured
value is positive. -/
example : ∃ pred : (Nat → ℝ) → GPPred 1, (∀ ω, gpRegress (kcov (.leaf (.linear 1 0 0) : KExpr ℝ (Pt 1))) (fun _ => 0)
      ((List.range 1).foldl (fun st t => gpAdd (fun _ => 0) st
        [noisyMeas (fun x => ω 0 * x 0) (fun _ => ![1]) (fun _ => 1) (fun t ω => ω (t + 1)) ω t]) none) (fun _ => ![1]) = .ok (pred ω)) ∧
    gaussDraws.real {ω | ω 0 * 1 ≤ (pred ω).mu 0 + 2 * Real.sqrt ((pred ω).sigma 0) ∧ (fun t : Fin 1 => ω 0 * 1 + ω (t + 1)) ∈ {v | 0 < v 0}} =
      Phi 2 * gaussDraws.real {ω | (fun t : Fin 1 => ω 0 * 1 + ω (t + 1)) ∈ {v | 0 < v 0}} := by
  obtain ⟨pred, hp, h⟩ := C134_quantile (.leaf (.linear 1 0 0) : KExpr ℝ (Pt 1)) (by simp [AllLeaves, LeafOK])
    (by simp [AllLeaves, NoNoise, noiseOf]) line_random (fun _ => ![1]) (fun _ => one_pos) line_error (T := 1) (by norm_num) (fun _ : Fin 1 => ![1])
    (by norm_num) (line_gauss (fun _ => ![1]) 1 fun _ => ![1])
  refine ⟨pred, hp, h 0 (fun ω => ?_) 2 _ (measurableSet_lt measurable_const (measurable_pi_apply 0))⟩
  obtain ⟨p, hp', -, hsig⟩ := one_row (cov := kcov (.leaf (.linear 1 0 0))) (x := ![1]) (y := ![1]) (v := ω 0 * 1 + ω 1) (s := 1) rfl rfl rfl
    (by simp)
  have e : p = pred ω := Except.ok.inj (hp'.symm.trans (hp ω))
  rw [← e, hsig]
  simp
  norm_num

end Lop.Props
