import Verif.Proofs.MhLimit
import Verif.Spec.MhLimit

/-! # C103: long runs of the Metropolis sampler -/

namespace Lop.Props

open Lop Lop.Spec MeasureTheory

variable {X Z : Type*} [MeasurableSpace X] [MeasurableSpace Z]

/-- The distribution of every sample. -/
theorem mh_sample_law {Ω : Type*} [MeasurableSpace Ω] {μ : Measure Ω} [IsProbabilityMeasure μ] {ρ : Measure Z}
    [IsProbabilityMeasure ρ] {ll : X → EReal} (hll : Measurable ll) {prop : X → Z → X}
    (hp : Measurable fun q : X × Z => prop q.1 q.2) {x0 : Ω → X} {z : Nat → Ω → Z} {u : Nat → Ω → ℝ}
    (hd : FreshDraws μ ρ x0 z u) (numSamples burn j : Nat) (hj : j < numSamples) :
    ∃ S : Ω → X, Measurable S ∧ μ.map S = stepLaws (ρ.prod unitUniform) (mhNext ll prop) (μ.map x0) (burn + j + 1) ∧ ∀ ω,
      (metropolisHastings ll numSamples burn (x0 ω) (fun i x => prop x (z i ω)) (fun i => u i ω))[j]? = some (S ω) := by
  let chain : Nat → Ω → X := fun i ω => histChain ll prop i (x0 ω, fun j => (z j ω, u j ω))
  have hdraws : ∀ i, Measurable fun ω => (x0 ω, fun j : Fin i => (z j ω, u j ω)) := fun i =>
    hd.start.prodMk (measurable_pi_lambda _ fun j => (hd.noise _).prodMk (hd.thresh _))
  have hcm : ∀ i, Measurable (chain i) := fun i => (histChain_meas hll hp i).comp (hdraws i)
  have hstep : ∀ i ω, chain (i + 1) ω = (mhStep ll (fun _ x => prop x (z i ω)) (fun _ => u i ω) 0 (chain i ω, ll (chain i ω))).1 := by
    intro i ω
    simp only [chain, histChain, Fin.val_last, Fin.val_castSucc]
  have hlaw : ∀ i, μ.map (chain i) = stepLaws (ρ.prod unitUniform) (mhNext ll prop) (μ.map x0) i := by
    intro i
    induction i with
    | zero => rfl
    | succ i ih =>
      have hzu : Measurable fun ω => (z i ω, u i ω) := (hd.noise i).prodMk (hd.thresh i)
      have hind : ProbabilityTheory.IndepFun (chain i) (fun ω => (z i ω, u i ω)) μ :=
        (hd.indep i).comp (histChain_meas hll hp i) measurable_id
      rw [ProbabilityTheory.indepFun_iff_map_prod_eq_prod_map_map (hcm i).aemeasurable hzu.aemeasurable, ih, hd.law i] at hind
      have : chain (i + 1) = mhNext ll prop ∘ fun ω => (chain i ω, (z i ω, u i ω)) := funext fun ω => hstep i ω
      have hnm : Measurable (mhNext ll prop) := mhStep_meas hll hp
      rw [this, ← Measure.map_map hnm ((hcm i).prodMk hzu), hind, stepLaws, stepLaw]
  refine ⟨chain (burn + j + 1), hcm _, hlaw _, fun ω => ?_⟩
  have hrun := mhLoop_eq (ll := ll) (prop := fun i x => prop x (z i ω)) (u := fun i => u i ω) (burn := burn) (fun i => chain i ω) (by
    intro i
    rw [hstep]
    simp only [mhStep]
    split_ifs <;> rfl) (numSamples + burn) 0
  rw [range'_filter_ge] at hrun
  have e : metropolisHastings ll numSamples burn (x0 ω) (fun i x => prop x (z i ω)) (fun i => u i ω) =
      List.map (fun j => chain (j + 1) ω) (List.range' burn numSamples) := hrun
  rw [e]
  simp [hj, List.getElem?_range']

variable {Ω : Type*} [MeasurableSpace Ω] {μ : Measure Ω} [IsProbabilityMeasure μ] {d : Nat} {x0 : Ω → Fin d → ℝ} {z : Nat → Ω → Fin d → ℝ}
  {u : Nat → Ω → ℝ}

theorem normalProp_meas (std : ℝ) : Measurable fun q : (Fin d → ℝ) × (Fin d → ℝ) => normalPropDist std q.1 q.2 := by
  unfold normalPropDist
  fun_prop

theorem normal_mixes {ll : (Fin d → ℝ) → EReal} (hll : Measurable ll) (ht : ∀ x, ll x ≠ ⊤) {std : ℝ} (hs : std ≠ 0)
    (h0 : targetOf volume ll ≠ 0) (m : Measure (Fin d → ℝ)) [IsFiniteMeasure m] :
    Mixes (targetOf volume ll) ((stdNormals d).prod unitUniform) (mhNext ll (normalPropDist std)) m :=
  mh_mixes hll ht (normalProp_meas std) (C90_normal_reversible d std) (fun x => (normalProp_ac hs x).1) (fun x => (normalProp_ac hs x).2) h0 m

/-- C103: `metropolis_hastings` with normal proposals of any standard deviation but zero. If `e ^ log_liklihood` has a finite positive integral
then, wherever the chain starts, the distribution of each sample comes as close as one likes to the distribution with the density
`e ^ log_liklihood` divided by its integral, if only enough steps are burnt, uniformly in all events and all samples. -/
theorem C103_converges {ll : (Fin d → ℝ) → EReal} (hll : Measurable ll) (ht : ∀ x, ll x ≠ ⊤)
    (hz0 : targetOf volume ll Set.univ ≠ 0) (hz1 : targetOf volume ll Set.univ ≠ ⊤) {std : ℝ} (hs : std ≠ 0)
    (hd : FreshDraws μ (stdNormals d) x0 z u) (ε : ℝ) (hε : 0 < ε) :
    ∃ N, ∀ burn ≥ N, ∀ numSamples j, j < numSamples → ∃ S : Ω → Fin d → ℝ, Measurable S ∧
      (∀ ω, (metropolisHastings ll numSamples burn (x0 ω) (fun i x => normalPropDist std x (z i ω)) (fun i => u i ω))[j]? = some (S ω)) ∧
      DistributedWithin μ S ((targetOf volume ll Set.univ)⁻¹ • targetOf volume ll) ε := by
  have hpm : IsProbabilityMeasure (μ.map x0) := Measure.isProbabilityMeasure_map hd.start.aemeasurable
  have h0 : targetOf volume ll ≠ 0 := fun h => hz0 (by rw [h]; rfl)
  obtain ⟨N, hN⟩ := normal_mixes hll ht hs h0 (μ.map x0) _ ε hz1 hε
  refine ⟨N, fun burn hb numSamples j hj => ?_⟩
  obtain ⟨S, hS, hlaw, hout⟩ := mh_sample_law (ll := ll) hll (normalProp_meas std) hd numSamples burn j hj
  refine ⟨S, hS, hout, fun K hK => ?_⟩
  have := hN (burn + j + 1) (by omega) K hK (measure_mono (Set.subset_univ _))
  rw [← hlaw, measure_univ, one_mul] at this
  rw [measureReal_def, Measure.map_apply hS hK, ENNReal.div_eq_inv_mul] at this
  exact this

/-- C103: if `e ^ log_liklihood` has no finite integral, no distribution is approached: every set on which the integral is finite is left. However
small `ε`, the probability that a sample lies in the set is at most `ε` if enough steps are burnt. -/
theorem C103_diverges {ll : (Fin d → ℝ) → EReal} (hll : Measurable ll) (ht : ∀ x, ll x ≠ ⊤)
    (hz : targetOf volume ll Set.univ = ⊤) {std : ℝ} (hs : std ≠ 0) (hd : FreshDraws μ (stdNormals d) x0 z u)
    (C : ENNReal) (hC : C ≠ ⊤) (ε : ℝ) (hε : 0 < ε) :
    ∃ N, ∀ burn ≥ N, ∀ numSamples j, j < numSamples → ∃ S : Ω → Fin d → ℝ, Measurable S ∧
      (∀ ω, (metropolisHastings ll numSamples burn (x0 ω) (fun i x => normalPropDist std x (z i ω)) (fun i => u i ω))[j]? = some (S ω)) ∧
      ∀ K, MeasurableSet K → targetOf volume ll K ≤ C → μ.real (S ⁻¹' K) ≤ ε := by
  have hpm : IsProbabilityMeasure (μ.map x0) := Measure.isProbabilityMeasure_map hd.start.aemeasurable
  have h0 : targetOf volume ll ≠ 0 := fun h => by simp [h] at hz
  obtain ⟨N, hN⟩ := normal_mixes hll ht hs h0 (μ.map x0) C ε hC hε
  refine ⟨N, fun burn hb numSamples j hj => ?_⟩
  obtain ⟨S, hS, hlaw, hout⟩ := mh_sample_law (ll := ll) hll (normalProp_meas std) hd numSamples burn j hj
  refine ⟨S, hS, hout, fun K hK hKC => ?_⟩
  have := hN (burn + j + 1) (by omega) K hK hKC
  rw [← hlaw, measure_univ, one_mul, hz, ENNReal.div_top, ENNReal.toReal_zero, sub_zero, measureReal_def, Measure.map_apply hS hK] at this
  exact (le_abs_self _).trans this

/-! ## The linear model -/

theorem absPy_cont {sigma v eps y : ℝ} (hv : 0 < v) (he : 0 < eps) (he2 : eps ≤ 1 / 2) (hy : 0 < y) (hy1 : y < 1) :
    Continuous (absPy sigma v eps y) := by
  have h1 : Continuous (meanLink sigma eps) := by
    unfold meanLink stdNormCdf npClip
    exact ((continuous_Phi.comp (((continuous_id.mul continuous_const).max continuous_const).min continuous_const)).max
      continuous_const).min continuous_const
  exact (betaLog_contOn hv he hy hy1).comp_continuous h1 fun f => meanLink_mem he2

theorem absLogLik_cont {n : Nat} {sigma v eps : ℝ} (hv : 0 < v) (he : 0 < eps) (he2 : eps ≤ 1 / 2) {y : List (ℝ × Fin n)}
    (hy : ∀ p ∈ y, 0 < p.1 ∧ p.1 < 1) : Continuous (absLogLik sigma v eps y : (Fin n → ℝ) → ℝ) := by
  have h2 : ∀ (l : List (ℝ × Fin n)) (M : (Fin n → ℝ) → Fin n → ℝ), (∀ p ∈ l, 0 < p.1 ∧ p.1 < 1) → (∀ i, Continuous fun F => M F i) →
      ∀ i, Continuous fun F => (l.map fun p => (p.2, absPy sigma v eps p.1 (F p.2))).foldl (fun M e => Function.update M e.1 e.2) (M F) i := by
    intro l
    induction l with
    | nil => intro M _ hM i; exact hM i
    | cons e l ih =>
      intro M hl hM i
      refine ih (fun F => Function.update (M F) e.2 (absPy sigma v eps e.1 (F e.2))) (fun e' he' => hl e' (List.mem_cons_of_mem _ he')) (fun k => ?_) i
      by_cases hk : k = e.2
      · subst hk
        simp only [Function.update_self]
        have hb := hl e List.mem_cons_self
        exact (absPy_cont hv he he2 hb.1 hb.2).comp (continuous_apply _)
      · simp only [Function.update_of_ne hk]; exact hM k
  exact continuous_finset_sum _ fun i _ => h2 y (fun _ _ => 0) hy (fun _ => continuous_const) i

theorem prefLogLik_cont {n : Nat} (sigma : ℝ) (y : List (IPair n)) : Continuous (prefLogLik sigma y) := by
  unfold prefLogLik
  refine continuous_list_sum _ fun p _ => ?_
  have : Continuous fun F : Fin n → ℝ => npClip (-30) 100 (zk sigma F p) := by
    unfold npClip zk
    fun_prop
  exact (continuous_Phi.comp this).log fun F => (Phi_pos _).ne'

/-- `loss_func` of the linear model is continuous. -/
theorem linLoss_cont {n : Nat} {P : ProbitSet} (hv : 0 < P.absV) (he : 0 < P.absEps) (he2 : P.absEps ≤ 1 / 2)
    {y : TrainLabels n} (ho : y.ord = none) (hy : ∀ r ∈ y.abs, ∀ p ∈ r, 0 < p.1 ∧ p.1 < 1) {X : Matrix (Fin n) (Fin d) ℝ}
    {ll : (Fin d → ℝ) → EReal} (hll : ∀ w, ∃ v : ℝ, linLoss P y X w = .ok (some v) ∧ ll w = v) :
    ∃ g : (Fin d → ℝ) → ℝ, Continuous g ∧ ∀ w, ll w = g w := by
  have hX : Continuous (linValues X) := by
    unfold linValues
    exact Continuous.matrix_mulVec continuous_const continuous_id
  have hp : Continuous fun w => pairLogPart P (linValues X w) y.pairs := by
    cases h : y.pairs with
    | none => exact continuous_const
    | some l => exact (prefLogLik_cont P.sigma l).comp hX
  have ha : Continuous fun w => absLogPart P (linValues X w) y.abs := by
    cases h : y.abs with
    | none => exact continuous_const
    | some l => exact (absLogLik_cont hv he he2 (hy l h)).comp hX
  refine ⟨fun w => pairLogPart P (linValues X w) y.pairs + 0 + absLogPart P (linValues X w) y.abs, (hp.add continuous_const).add ha, fun w => ?_⟩
  obtain ⟨v, h1, h2⟩ := hll w
  rw [h2]
  simp only [linLoss, logLikTraining, ho, ordLogPart, Except.map, Option.map] at h1
  injection h1 with h1
  injection h1 with h1
  rw [← h1]

/-- A bounded set has finite measure under a continuous density. -/
theorem target_box_lt {g : (Fin d → ℝ) → ℝ} (hg : Continuous g) {ll : (Fin d → ℝ) → EReal} (hll : ∀ w, ll w = g w) (R : ℝ) :
    targetOf volume ll (Set.Icc (fun _ => -R) fun _ => R) ≠ ⊤ := by
  obtain ⟨B, hB⟩ := isCompact_Icc.bddAbove_image (K := Set.Icc (fun _ : Fin d => -R) fun _ => R) hg.continuousOn
  rw [targetOf, withDensity_apply _ measurableSet_Icc]
  have h1 : ∫⁻ w in Set.Icc (fun _ : Fin d => -R) fun _ => R, EReal.exp (ll w) ≤
      ∫⁻ _ in Set.Icc (fun _ : Fin d => -R) fun _ => R, ENNReal.ofReal (Real.exp B) := by
    refine setLIntegral_mono measurable_const fun w hw => ?_
    rw [hll, EReal.exp_coe]
    exact ENNReal.ofReal_le_ofReal (Real.exp_le_exp.2 (hB ⟨w, hw, rfl⟩))
  refine ne_top_of_le_ne_top ?_ h1
  rw [setLIntegral_const]
  exact ENNReal.mul_ne_top ENNReal.ofReal_ne_top isCompact_Icc.measure_ne_top

/-- What is meant by: the samples of `metropolis_hastings` with the logarithmic density `ll` leave every bounded set and approach no distribution. -/
def SamplesEscape (ll : (Fin d → ℝ) → EReal) (std : ℝ) (μ : Measure Ω) (x0 : Ω → Fin d → ℝ) (z : Nat → Ω → Fin d → ℝ) (u : Nat → Ω → ℝ) : Prop :=
  ∀ (R ε : ℝ), 0 < ε → ∃ N, ∀ burn ≥ N, ∀ numSamples j, j < numSamples → ∃ S : Ω → Fin d → ℝ, Measurable S ∧
    (∀ ω, (metropolisHastings ll numSamples burn (x0 ω) (fun i x => normalPropDist std x (z i ω)) (fun i => u i ω))[j]? = some (S ω)) ∧
    μ.real {ω | ∀ i, |S ω i| ≤ R} ≤ ε

theorem samples_escape {g : (Fin d → ℝ) → ℝ} (hg : Continuous g) {ll : (Fin d → ℝ) → EReal} (hll : ∀ w, ll w = g w)
    (hz : targetOf volume ll Set.univ = ⊤) {std : ℝ} (hs : std ≠ 0) (hd : FreshDraws μ (stdNormals d) x0 z u) :
    SamplesEscape ll std μ x0 z u := by
  intro R ε hε
  have hm : Measurable ll := by
    rw [show ll = fun w => (g w : EReal) from funext hll]
    exact measurable_coe_real_ereal.comp hg.measurable
  obtain ⟨N, hN⟩ := C103_diverges hm (fun x => by rw [hll]; exact EReal.coe_ne_top _) hz hs hd _ (target_box_lt hg hll R) ε hε
  refine ⟨N, fun burn hb numSamples j hj => ?_⟩
  obtain ⟨S, hS, hout, hK⟩ := hN burn hb numSamples j hj
  refine ⟨S, hS, hout, ?_⟩
  have := hK _ measurableSet_Icc le_rfl
  convert this using 2
  ext ω
  simp only [Set.mem_setOf_eq, Set.mem_preimage, Set.mem_Icc, Pi.le_def, abs_le]
  exact forall_and

/-- C103, refuted for the learners: they sample the weights of a linear model with `loss_func` as the logarithm of the density. Whatever pairs and
ratings the model is trained on, the probability that a sample lies in a given bounded set of weights tends to zero as more steps are
burnt: longer runs give ever larger weights and approach no distribution. -/
theorem C103_linear_false {n : Nat} (hpos : 0 < d) (P : ProbitSet) (hv : 0 < P.absV) (he : 0 < P.absEps) (he2 : P.absEps ≤ 1 / 2)
    (y : TrainLabels n) (ho : y.ord = none) (hy : ∀ r ∈ y.abs, ∀ p ∈ r, 0 < p.1 ∧ p.1 < 1) (X : Matrix (Fin n) (Fin d) ℝ)
    (ll : (Fin d → ℝ) → EReal) (hll : ∀ w, ∃ v : ℝ, linLoss P y X w = .ok (some v) ∧ ll w = v) {std : ℝ} (hs : std ≠ 0)
    (hd : FreshDraws μ (stdNormals d) x0 z u) : SamplesEscape ll std μ x0 z u := by
  obtain ⟨g, hg, hgl⟩ := linLoss_cont hv he he2 ho hy hll
  exact samples_escape hg hgl (C90_linear_false hpos P hv he he2 y ho hy X ll hll).1 hs hd

/-- C103, refuted for the learners: without training data `loss_func` is zero; the chain is a random walk. -/
theorem C103_untrained_false (hpos : 0 < d) {std : ℝ} (hs : std ≠ 0) (hd : FreshDraws μ (stdNormals d) x0 z u) :
    SamplesEscape (fun _ => 0) std μ x0 z u := by
  have : Nonempty (Fin d) := ⟨⟨0, hpos⟩⟩
  refine samples_escape (g := fun _ => 0) continuous_const (fun _ => rfl) ?_ hs hd
  simp [targetOf]

/-- C103, refuted for the learners: samples that leave every bounded set approach no distribution `Q`. -/
theorem C103_no_limit_false {ll : (Fin d → ℝ) → EReal} {std : ℝ} (h : SamplesEscape ll std μ x0 z u) (Q : Measure (Fin d → ℝ))
    [IsProbabilityMeasure Q] (ε : ℝ) (hε : ε < 1) : ∃ N, ∀ burn ≥ N, ∀ numSamples j, j < numSamples → ∀ S : Ω → Fin d → ℝ,
      (∀ ω, (metropolisHastings ll numSamples burn (x0 ω) (fun i x => normalPropDist std x (z i ω)) (fun i => u i ω))[j]? = some (S ω)) →
      ¬ DistributedWithin μ S Q ε := by
  have hR : ∃ R : ℝ, 1 - (1 - ε) / 3 < Q.real {x | ∀ i, |x i| ≤ R} := by
    have hmono : Monotone fun n : ℕ => {x : Fin d → ℝ | ∀ i, |x i| ≤ n} := fun m n hmn x hx i => (hx i).trans (by exact_mod_cast hmn)
    have hU : (⋃ n : ℕ, {x : Fin d → ℝ | ∀ i, |x i| ≤ n}) = Set.univ := by
      refine Set.eq_univ_of_forall fun x => ?_
      obtain ⟨n, hn⟩ := exists_nat_ge (∑ i, |x i|)
      exact Set.mem_iUnion.2 ⟨n, fun i => (Finset.single_le_sum (f := fun i => |x i|) (fun _ _ => abs_nonneg _) (Finset.mem_univ i)).trans hn⟩
    have ht := tendsto_measure_iUnion_atTop (μ := Q) hmono
    rw [hU, measure_univ] at ht
    have ht' := (ENNReal.tendsto_toReal ENNReal.one_ne_top).comp ht
    obtain ⟨n, hn⟩ := (ht'.eventually (lt_mem_nhds (a := 1 - (1 - ε) / 3) (by simp; linarith))).exists
    exact ⟨n, hn⟩
  obtain ⟨R, hR⟩ := hR
  obtain ⟨N, hN⟩ := h R ((1 - ε) / 3) (by linarith)
  refine ⟨N, fun burn hb numSamples j hj S hS hQ => ?_⟩
  obtain ⟨S', _, hS', hle⟩ := hN burn hb numSamples j hj
  have e : S' = S := funext fun ω => Option.some.inj ((hS' ω).symm.trans (hS ω))
  subst e
  have hK : MeasurableSet {x : Fin d → ℝ | ∀ i, |x i| ≤ R} := by
    rw [Set.setOf_forall]
    exact MeasurableSet.iInter fun i => measurableSet_le (measurable_pi_apply i).abs measurable_const
  have := (abs_le.1 (hQ _ hK)).1
  have h1 : μ.real (S' ⁻¹' {x | ∀ i, |x i| ≤ R}) ≤ (1 - ε) / 3 := hle
  linarith

/-! ## Examples -/

instance (d : Nat) : IsProbabilityMeasure (boxUniform d) := by
  have : IsProbabilityMeasure (unitUniform.map fun v => v * 2 - 1) := Measure.isProbabilityMeasure_map (by fun_prop)
  unfold boxUniform
  infer_instance

/-- The starting points of the program and the uniform distribution on the unit square as target. -/
example : ∃ (Ω : Type) (_ : MeasurableSpace Ω) (μ : Measure Ω) (x0 : Ω → Fin 2 → ℝ) (z : Nat → Ω → Fin 2 → ℝ) (u : Nat → Ω → ℝ)
    (ll : (Fin 2 → ℝ) → EReal), IsProbabilityMeasure μ ∧ μ.map x0 = boxUniform 2 ∧
    targetOf volume ll = volume.restrict (Set.Icc 0 1) ∧ ∃ N, ∀ burn ≥ N, ∃ S : Ω → Fin 2 → ℝ,
      (∀ ω, (metropolisHastings ll 2000 burn (x0 ω) (fun i x => normalPropDist 2 x (z i ω)) (fun i => u i ω))[1999]? = some (S ω)) ∧
      DistributedWithin μ S (volume.restrict (Set.Icc 0 1)) (1 / 1000) := by
  classical
  obtain ⟨μ, x0, z, u, hμ, h0, hf⟩ := freshDraws_exist (boxUniform 2) (stdNormals 2)
  let ll : (Fin 2 → ℝ) → EReal := (Set.Icc 0 1).piecewise (fun _ => 0) fun _ => ⊥
  have hll : Measurable ll := Measurable.piecewise measurableSet_Icc measurable_const measurable_const
  have ht : targetOf volume ll = volume.restrict (Set.Icc 0 1) := by
    rw [targetOf, ← withDensity_indicator_one measurableSet_Icc]
    congr 1
    funext x
    by_cases hx : x ∈ Set.Icc (0 : Fin 2 → ℝ) 1
    · simp only [ll, Set.piecewise_eq_of_mem _ _ _ hx, Set.indicator_of_mem hx]; simp
    · simp only [ll, Set.piecewise_eq_of_notMem _ _ _ hx, Set.indicator_of_notMem hx]; simp
  have h1 : targetOf volume ll Set.univ = 1 := by
    rw [ht, Measure.restrict_apply_univ, Real.volume_Icc_pi]
    simp
  obtain ⟨N, hN⟩ := C103_converges hll (fun x => by
    by_cases hx : x ∈ Set.Icc (0 : Fin 2 → ℝ) 1
    · simp only [ll, Set.piecewise_eq_of_mem _ _ _ hx]; simp
    · simp only [ll, Set.piecewise_eq_of_notMem _ _ _ hx]; simp) (by rw [h1]; simp) (by rw [h1]; simp) (std := 2) (by norm_num) hf
    (1 / 1000) (by norm_num)
  refine ⟨_, _, μ, x0, z, u, ll, hμ, h0, ht, N, fun burn hb => ?_⟩
  obtain ⟨S, _, hS, hw⟩ := hN burn hb 2000 1999 (by decide)
  rw [h1, inv_one, one_smul, ht] at hw
  exact ⟨S, hS, hw⟩

/-- One pair and one rating of two points, and the starting points of the program. -/
example (P : ProbitSet) (hv : P.absV = 80) (he : P.absEps = 1 / 100000) (X : Matrix (Fin 2) (Fin 3) ℝ) :
    ∃ (Ω : Type) (_ : MeasurableSpace Ω) (μ : Measure Ω) (x0 : Ω → Fin 3 → ℝ) (z : Nat → Ω → Fin 3 → ℝ) (u : Nat → Ω → ℝ)
      (ll : (Fin 3 → ℝ) → EReal), IsProbabilityMeasure μ ∧ μ.map x0 = boxUniform 3 ∧ SamplesEscape ll 2 μ x0 z u := by
  let y : TrainLabels 2 := ⟨some [⟨1, 0, 1⟩], none, some [(1 / 2, 0)]⟩
  have h : ∀ w, ∃ v : ℝ, linLoss P y X w = .ok (some v) := fun w => ⟨_, rfl⟩
  choose v hv' using h
  obtain ⟨μ, x0, z, u, hμ, h0, hf⟩ := freshDraws_exist (boxUniform 3) (stdNormals 3)
  refine ⟨_, _, μ, x0, z, u, fun w => (v w : EReal), hμ, h0, C103_linear_false (by norm_num) P (by rw [hv]; norm_num) (by rw [he]; norm_num)
    (by rw [he]; norm_num) y rfl ?_ X _ (fun w => ⟨v w, hv' w, rfl⟩) (by norm_num) hf⟩
  intro r hr p hp
  simp only [y, Option.mem_def, Option.some.injEq] at hr
  subst hr
  simp at hp
  subst hp
  norm_num

end Lop.Props
