import Verif.Props.MhLimit
import Verif.Proofs.MhAverage

/-! # C103: averages of the samples of the Metropolis sampler -/

namespace Lop.Props

open Lop Lop.Spec MeasureTheory

variable {X Z : Type*} [MeasurableSpace X] [MeasurableSpace Z]

/-- The chain behind the samples. -/
theorem mh_run {Ω : Type*} [MeasurableSpace Ω] {μ : Measure Ω} [IsProbabilityMeasure μ] {ρ : Measure Z}
    [IsProbabilityMeasure ρ] {ll : X → EReal} (hll : Measurable ll) {prop : X → Z → X}
    (hp : Measurable fun q : X × Z => prop q.1 q.2) {x0 : Ω → X} {z : Nat → Ω → Z} {u : Nat → Ω → ℝ} (hd : FreshDraws μ ρ x0 z u) :
    ∃ chain : Nat → Ω → X, (∀ i, Measurable (chain i)) ∧ (∀ i ω, chain (i + 1) ω = mhNext ll prop (chain i ω, (z i ω, u i ω))) ∧
      (∀ i k, i ≤ k → ProbabilityTheory.IndepFun (fun ω => (chain i ω, chain k ω)) (fun ω => (z k ω, u k ω)) μ) ∧
      ∀ numSamples burn ω, metropolisHastings ll numSamples burn (x0 ω) (fun i x => prop x (z i ω)) (fun i => u i ω) =
        List.map (fun j => chain (j + 1) ω) (List.range' burn numSamples) := by
  let chain : Nat → Ω → X := fun i ω => histChain ll prop i (x0 ω, fun j => (z j ω, u j ω))
  have hdraws : ∀ i, Measurable fun ω => (x0 ω, fun j : Fin i => (z j ω, u j ω)) := fun i =>
    hd.start.prodMk (measurable_pi_lambda _ fun j => (hd.noise _).prodMk (hd.thresh _))
  have hcm : ∀ i, Measurable (chain i) := fun i => (histChain_meas hll hp i).comp (hdraws i)
  have hstep : ∀ i ω, chain (i + 1) ω = (mhStep ll (fun _ x => prop x (z i ω)) (fun _ => u i ω) 0 (chain i ω, ll (chain i ω))).1 := by
    intro i ω
    simp only [chain, histChain, Fin.val_last, Fin.val_castSucc]
  refine ⟨chain, hcm, hstep, fun i k hik => ?_, fun numSamples burn ω => ?_⟩
  · have h1 : Measurable fun q : X × (Fin k → Z × ℝ) =>
        (histChain ll prop i (q.1, fun j => q.2 (j.castLE hik)), histChain ll prop k q) :=
      ((histChain_meas hll hp i).comp (measurable_fst.prodMk (measurable_pi_lambda _ fun j => (measurable_pi_apply _).comp measurable_snd))).prodMk
        (histChain_meas hll hp k)
    exact (hd.indep k).comp h1 measurable_id
  · have hrun := mhLoop_eq (ll := ll) (prop := fun i x => prop x (z i ω)) (u := fun i => u i ω) (burn := burn) (fun i => chain i ω) (by
      intro i
      rw [hstep]
      simp only [mhStep]
      split_ifs <;> rfl) (numSamples + burn) 0
    rw [range'_filter_ge] at hrun
    exact hrun

variable {Ω : Type*} [MeasurableSpace Ω] {μ : Measure Ω} [IsProbabilityMeasure μ] {d : Nat} {x0 : Ω → Fin d → ℝ} {z : Nat → Ω → Fin d → ℝ}
  {u : Nat → Ω → ℝ}

/-- C103 (averages): under the conditions of `C103_converges` the average of a bounded function over the samples, such as the share of samples in which
a candidate is the best, comes as close as one likes (in mean absolute error) to its expectation under the target if only enough samples are
drawn, whatever the number of burnt steps. -/
theorem C103_averages {ll : (Fin d → ℝ) → EReal} (hll : Measurable ll) (ht : ∀ x, ll x ≠ ⊤)
    (hz0 : targetOf volume ll Set.univ ≠ 0) (hz1 : targetOf volume ll Set.univ ≠ ⊤) {std : ℝ} (hs : std ≠ 0)
    (hd : FreshDraws μ (stdNormals d) x0 z u) {f : (Fin d → ℝ) → ℝ} (hf : Measurable f) {B : ℝ} (hB : ∀ x, |f x| ≤ B) (ε : ℝ) (hε : 0 < ε) :
    ∃ N, ∀ numSamples ≥ N, ∀ burn,
      ∫ ω, |((metropolisHastings ll numSamples burn (x0 ω) (fun i x => normalPropDist std x (z i ω)) (fun i => u i ω)).map f).sum / numSamples -
        ∫ x, f x ∂((targetOf volume ll Set.univ)⁻¹ • targetOf volume ll)| ∂μ ≤ ε := by
  obtain ⟨chain, hcm, hstep, hind, hout⟩ := mh_run (ll := ll) hll (normalProp_meas std) hd
  have hfin : IsFiniteMeasure (targetOf volume ll) := ⟨lt_of_le_of_ne le_top hz1⟩
  have h0 : targetOf volume ll ≠ 0 := fun h => hz0 (by rw [h]; rfl)
  have hP : IsProbabilityMeasure ((targetOf volume ll Set.univ)⁻¹ • targetOf volume ll) :=
    ⟨by rw [Measure.smul_apply, smul_eq_mul, ENNReal.inv_mul_cancel hz0 hz1]⟩
  have hm : Measurable (mhNext ll (normalPropDist std)) := mhStep_meas hll (normalProp_meas std)
  have hset : ∀ K, MeasurableSet K → AveragesTo μ chain (K.indicator 1) (((targetOf volume ll Set.univ)⁻¹ • targetOf volume ll).real K) := by
    intro K hK
    have e : ((targetOf volume ll Set.univ)⁻¹ • targetOf volume ll).real K = (targetOf volume ll).real K / (targetOf volume ll).real Set.univ := by
      rw [Measure.real, Measure.smul_apply, smul_eq_mul, ENNReal.toReal_mul, ENNReal.toReal_inv, Measure.real, Measure.real, div_eq_inv_mul]
    rw [e]
    refine averages_indicator hK (by positivity) (div_le_one_of_le₀ (measureReal_mono (Set.subset_univ _)) measureReal_nonneg) hcm fun ε hε => ?_
    exact run_square h0 (fun m _ => normal_mixes hll ht hs h0 m) hm hcm (fun i => (hd.noise i).prodMk (hd.thresh i)) hd.law hstep hind hK ε hε
  obtain ⟨N, hN⟩ := averages_bounded hcm hset hf hB ε hε
  refine ⟨N, fun numSamples hn burn => ?_⟩
  have e : ∀ ω, ((metropolisHastings ll numSamples burn (x0 ω) (fun i x => normalPropDist std x (z i ω)) (fun i => u i ω)).map f).sum =
      ∑ j ∈ Finset.range numSamples, f (chain (burn + 1 + j) ω) := by
    intro ω
    rw [hout, List.map_map, Finset.sum_eq_multiset_sum, Finset.range_val, ← Multiset.coe_range, Multiset.map_coe, Multiset.sum_coe,
      List.range'_eq_map_range, List.map_map]
    congr 1
    refine List.map_congr_left fun j _ => ?_
    simp only [Function.comp_apply]
    rw [Nat.add_right_comm]
  simp only [e]
  exact hN numSamples hn (burn + 1)

/-- C103, refuted for the learners: where the samples leave every bounded set (`C103_linear_false`, `C103_untrained_false`), the share of the samples
that lie in a given bounded set tends to zero in the mean as more samples are drawn, whatever the number of burnt steps. -/
theorem C103_share_false {ll : (Fin d → ℝ) → EReal} (hll : Measurable ll) {std : ℝ} (hd : FreshDraws μ (stdNormals d) x0 z u)
    (h : SamplesEscape ll std μ x0 z u) (R ε : ℝ) (hε : 0 < ε) :
    ∃ N, ∀ numSamples ≥ N, ∀ burn,
      ∫ ω, ((metropolisHastings ll numSamples burn (x0 ω) (fun i x => normalPropDist std x (z i ω)) (fun i => u i ω)).map
        ({x : Fin d → ℝ | ∀ i, |x i| ≤ R}.indicator (1 : (Fin d → ℝ) → ℝ))).sum / numSamples ∂μ ≤ ε := by
  obtain ⟨chain, hcm, hstep, hind, hout⟩ := mh_run (ll := ll) hll (normalProp_meas std) hd
  set K : Set (Fin d → ℝ) := {x | ∀ i, |x i| ≤ R} with hKdef
  have hK : MeasurableSet K := by
    rw [hKdef, Set.setOf_forall]
    exact MeasurableSet.iInter fun i => measurableSet_le (measurable_pi_apply i).abs measurable_const
  obtain ⟨N, hN⟩ := h R (ε / 2) (by linarith)
  have hlate : ∀ i ≥ N, μ.real (chain (i + 1) ⁻¹' K) ≤ ε / 2 := by
    intro i hi
    obtain ⟨S, _, hS, hle⟩ := hN i hi 1 0 (by norm_num)
    have e : S = chain (i + 1) := by
      funext ω
      have := hS ω
      rw [hout] at this
      simpa using this.symm
    subst e
    exact hle
  obtain ⟨M, hM⟩ := exists_nat_gt (2 * N / ε)
  refine ⟨M + 1, fun n hn burn => ?_⟩
  have hn0 : (0 : ℝ) < n := by exact_mod_cast (by omega : 0 < n)
  have e : ∀ ω, ((metropolisHastings ll n burn (x0 ω) (fun i x => normalPropDist std x (z i ω)) (fun i => u i ω)).map
        (K.indicator (1 : (Fin d → ℝ) → ℝ))).sum = ∑ j ∈ Finset.range n, (chain (burn + j + 1) ⁻¹' K).indicator (1 : Ω → ℝ) ω := by
    intro ω
    rw [hout, List.map_map, Finset.sum_eq_multiset_sum, Finset.range_val, ← Multiset.coe_range, Multiset.map_coe, Multiset.sum_coe,
      List.range'_eq_map_range, List.map_map]
    rfl
  simp only [e]
  have hi : ∀ j, Integrable ((chain (burn + j + 1) ⁻¹' K).indicator (1 : Ω → ℝ)) μ := fun j =>
    (integrable_const (1 : ℝ)).indicator (hcm _ hK)
  rw [integral_div, integral_finset_sum _ fun j _ => hi j, div_le_iff₀ hn0]
  have hb : ∀ j ∈ Finset.range n, ∫ ω, (chain (burn + j + 1) ⁻¹' K).indicator (1 : Ω → ℝ) ω ∂μ ≤ ε / 2 + if j ∈ Finset.range N then 1 else 0 := by
    intro j _
    rw [integral_indicator_one (hcm _ hK)]
    by_cases hj : j ∈ Finset.range N
    · rw [if_pos hj]
      have : μ.real (chain (burn + j + 1) ⁻¹' K) ≤ 1 := measureReal_le_one
      linarith
    · rw [if_neg hj, add_zero]
      exact hlate _ (by simp at hj; omega)
  refine (Finset.sum_le_sum hb).trans ?_
  rw [Finset.sum_add_distrib, Finset.sum_const, Finset.card_range, nsmul_eq_mul]
  have c1 : ∑ j ∈ Finset.range n, (if j ∈ Finset.range N then (1 : ℝ) else 0) ≤ N := by
    rw [Finset.sum_boole]
    exact_mod_cast (Finset.card_le_card (t := Finset.range N) fun x hx => (Finset.mem_filter.1 hx).2).trans (Finset.card_range N).le
  have hMn : (M : ℝ) ≤ n := by exact_mod_cast (by omega : M ≤ n)
  have := (div_lt_iff₀ hε).1 (hM.trans_le hMn)
  linarith

/-- The share of samples in the lower half of the unit square, started where the program starts. -/
example : ∃ (Ω : Type) (_ : MeasurableSpace Ω) (μ : Measure Ω) (x0 : Ω → Fin 2 → ℝ) (z : Nat → Ω → Fin 2 → ℝ) (u : Nat → Ω → ℝ)
    (ll : (Fin 2 → ℝ) → EReal), IsProbabilityMeasure μ ∧ μ.map x0 = boxUniform 2 ∧
    targetOf volume ll = volume.restrict (Set.Icc 0 1) ∧ ∃ N, ∀ n ≥ N,
      ∫ ω, |((metropolisHastings ll n 500 (x0 ω) (fun i x => normalPropDist 2 x (z i ω)) (fun i => u i ω)).map
        ({x : Fin 2 → ℝ | x 0 ≤ 1 / 2}.indicator 1)).sum / n -
        ∫ x, {x : Fin 2 → ℝ | x 0 ≤ 1 / 2}.indicator (1 : (Fin 2 → ℝ) → ℝ) x ∂(volume.restrict (Set.Icc 0 1))| ∂μ ≤ 1 / 1000 := by
  classical
  obtain ⟨μ, x0, z, u, hμ, h0, hf⟩ := freshDraws_exist (boxUniform 2) (stdNormals 2)
  let ll : (Fin 2 → ℝ) → EReal := (Set.Icc 0 1).piecewise (fun _ => 0) fun _ => ⊥
  have hll : Measurable ll := Measurable.piecewise measurableSet_Icc measurable_const measurable_const
  have ht : targetOf volume ll = volume.restrict (Set.Icc 0 1) := by
    rw [targetOf, ← withDensity_indicator_one measurableSet_Icc]
    congr 1
    funext x
    by_cases hx : x ∈ Set.Icc (0 : Fin 2 → ℝ) 1
    · simp only [ll, Set.piecewise_eq_of_mem _ _ _ hx, Set.indicator_of_mem hx]; simp
    · simp only [ll, Set.piecewise_eq_of_notMem _ _ _ hx, Set.indicator_of_notMem hx]; simp
  have h1 : targetOf volume ll Set.univ = 1 := by
    rw [ht, Measure.restrict_apply_univ, Real.volume_Icc_pi]
    simp
  have hK : MeasurableSet {x : Fin 2 → ℝ | x 0 ≤ 1 / 2} := measurableSet_le (measurable_pi_apply 0) measurable_const
  obtain ⟨N, hN⟩ := C103_averages hll (fun x => by
    by_cases hx : x ∈ Set.Icc (0 : Fin 2 → ℝ) 1
    · simp only [ll, Set.piecewise_eq_of_mem _ _ _ hx]; simp
    · simp only [ll, Set.piecewise_eq_of_notMem _ _ _ hx]; simp) (by rw [h1]; simp) (by rw [h1]; simp) (std := 2) (by norm_num) hf
    (f := {x : Fin 2 → ℝ | x 0 ≤ 1 / 2}.indicator 1) (measurable_one.indicator hK) (B := 1) (fun x => by
      by_cases hx : x ∈ {x : Fin 2 → ℝ | x 0 ≤ 1 / 2}
      · rw [Set.indicator_of_mem hx]; simp
      · rw [Set.indicator_of_notMem hx]; simp) (1 / 1000) (by norm_num)
  refine ⟨_, _, μ, x0, z, u, ll, hμ, h0, ht, N, fun n hn => ?_⟩
  have := hN n hn 500
  rwa [h1, inv_one, one_smul, ht] at this

end Lop.Props
