import Mathlib.Analysis.InnerProductSpace.Adjoint
import Mathlib.MeasureTheory.Function.L2Space
import Mathlib.MeasureTheory.Function.LpSpace.Basic
import Mathlib.MeasureTheory.Measure.Prod
import Mathlib.MeasureTheory.Measure.WithDensity
import Mathlib.MeasureTheory.Integral.Prod
import Mathlib.Topology.Algebra.Order.LiminfLimsup
import Mathlib.Topology.Order.MonotoneConvergence
import Mathlib.MeasureTheory.Function.AEEqOfIntegral
import Mathlib.MeasureTheory.Measure.Decomposition.RadonNikodym

/-! # Long runs of reversible chains -/

namespace Lop

open MeasureTheory Filter Topology ENNReal

section Hilbert

variable {H : Type*} [NormedAddCommGroup H] [InnerProductSpace ℝ H] [CompleteSpace H]

/-- The even iterates of a symmetric contraction converge, to a fixed point of its square. -/
theorem even_iterates (T : H →L[ℝ] H) (hs : ∀ x y, inner ℝ (T x) y = inner ℝ x (T y)) (hc : ∀ x, ‖T x‖ ≤ ‖x‖) (x : H) :
    ∃ q, Tendsto (fun n => (T^[2 * n]) x) atTop (𝓝 q) ∧ T (T q) = q := by
  have hsn : ∀ n x y, inner ℝ ((T^[n]) x) y = inner ℝ x ((T^[n]) y) := by
    intro n
    induction n with
    | zero => intro x y; rfl
    | succ n ih =>
      intro x y
      rw [Function.iterate_succ_apply, ih, hs, ← Function.iterate_succ_apply' T n y]
  have hanti : Antitone fun n => ‖(T^[n]) x‖ ^ 2 := by
    refine antitone_nat_of_succ_le fun n => ?_
    rw [Function.iterate_succ_apply']
    exact pow_le_pow_left₀ (norm_nonneg _) (hc _) 2
  obtain ⟨l, hl⟩ : ∃ l, Tendsto (fun n => ‖(T^[n]) x‖ ^ 2) atTop (𝓝 l) :=
    ⟨_, tendsto_atTop_ciInf hanti ⟨0, by rintro _ ⟨n, rfl⟩; positivity⟩⟩
  have hdist : ∀ n m, ‖(T^[2 * n]) x - (T^[2 * m]) x‖ ^ 2 =
      ‖(T^[2 * n]) x‖ ^ 2 - 2 * ‖(T^[n + m]) x‖ ^ 2 + ‖(T^[2 * m]) x‖ ^ 2 := by
    intro n m
    have e : inner ℝ ((T^[2 * n]) x) ((T^[2 * m]) x) = ‖(T^[n + m]) x‖ ^ 2 := by
      rw [← real_inner_self_eq_norm_sq, hsn, hsn, ← Function.iterate_add_apply, ← Function.iterate_add_apply]
      congr 2
      omega
    rw [@norm_sub_sq_real, e]
  have hcau : CauchySeq fun n => (T^[2 * n]) x := by
    rw [Metric.cauchySeq_iff']
    intro ε hε
    have hlow : ∀ n, l ≤ ‖(T^[n]) x‖ ^ 2 := fun n => hanti.le_of_tendsto hl n
    obtain ⟨N, hN⟩ := (hl.eventually (gt_mem_nhds (show l < l + ε ^ 2 / 4 by linarith [pow_pos hε 2]))).exists_forall_of_atTop
    refine ⟨N, fun n hn => ?_⟩
    rw [dist_eq_norm]
    have h1 := hN (2 * n) (by omega)
    have h2 := hN (2 * N) (by omega)
    have h3 := hlow (n + N)
    have h4 := hdist n N
    refine lt_of_pow_lt_pow_left₀ 2 hε.le ?_
    nlinarith [sq_nonneg ε, pow_pos hε 2]
  obtain ⟨q, hq⟩ := cauchySeq_tendsto_of_complete hcau
  refine ⟨q, hq, ?_⟩
  have h1 : Tendsto (fun n => T (T ((T^[2 * n]) x))) atTop (𝓝 (T (T q))) :=
    ((T.continuous.comp T.continuous).tendsto q).comp hq
  have h2 : (fun n => T (T ((T^[2 * n]) x))) = fun n => (fun n => (T^[2 * n]) x) (n + 1) := by
    funext n
    change _ = (T^[2 * n + 2]) x
    rw [Function.iterate_succ_apply', Function.iterate_succ_apply']
  rw [h2] at h1
  exact tendsto_nhds_unique h1 ((tendsto_add_atTop_iff_nat 1).2 hq)

end Hilbert

section Chain

variable {X W : Type*} [MeasurableSpace X] [MeasurableSpace W]

/-- The distribution after one step with fresh noise. -/
noncomputable def stepLaw (κ : Measure W) (step : X × W → X) (μ : Measure X) : Measure X := (μ.prod κ).map step

variable {π : Measure X} [SigmaFinite π] {κ : Measure W} [IsProbabilityMeasure κ] {step : X × W → X}

/-- The value at the present state. -/
noncomputable def atStart (π : Measure X) [SigmaFinite π] (κ : Measure W) [IsProbabilityMeasure κ] : Lp ℝ 2 π →ₗᵢ[ℝ] Lp ℝ 2 (π.prod κ) :=
  Lp.compMeasurePreservingₗᵢ ℝ Prod.fst (measurePreserving_fst (μ := π) (ν := κ))

/-- The value at the next state. -/
noncomputable def atNext (hp : MeasurePreserving step (π.prod κ) π) : Lp ℝ 2 π →ₗᵢ[ℝ] Lp ℝ 2 (π.prod κ) :=
  Lp.compMeasurePreservingₗᵢ ℝ step hp

/-- The expected value at the next state. -/
noncomputable def nextMean (hp : MeasurePreserving step (π.prod κ) π) : Lp ℝ 2 π →L[ℝ] Lp ℝ 2 π :=
  (ContinuousLinearMap.adjoint (atStart π κ).toContinuousLinearMap).comp (atNext hp).toContinuousLinearMap

theorem nextMean_inner (hp : MeasurePreserving step (π.prod κ) π) (f g : Lp ℝ 2 π) :
    inner ℝ (nextMean hp f) g = ∫ q, f (step q) * g q.1 ∂(π.prod κ) := by
  have h1 : inner ℝ (nextMean hp f) g = inner ℝ (atNext hp f) (atStart π κ g) := by
    rw [nextMean, ContinuousLinearMap.comp_apply, ContinuousLinearMap.adjoint_inner_left]
    rfl
  rw [h1, L2.inner_def]
  refine integral_congr_ae ?_
  have e1 : atNext hp f =ᵐ[π.prod κ] f ∘ step := Lp.coeFn_compMeasurePreserving f hp
  have e2 : atStart π κ g =ᵐ[π.prod κ] g ∘ Prod.fst := Lp.coeFn_compMeasurePreserving g measurePreserving_fst
  filter_upwards [e1, e2] with q h1 h2
  rw [h1, h2]
  simp [mul_comm]

theorem nextMean_symm (hp : MeasurePreserving step (π.prod κ) π)
    (hsym : (π.prod κ).map (fun q => (step q, q.1)) = (π.prod κ).map (fun q => (q.1, step q))) (f g : Lp ℝ 2 π) :
    inner ℝ (nextMean hp f) g = inner ℝ f (nextMean hp g) := by
  rw [← real_inner_comm f (nextMean hp g), nextMean_inner, nextMean_inner]
  have hF : Measurable fun p : X × X => f p.1 * g p.2 :=
    ((Lp.stronglyMeasurable f).measurable.comp measurable_fst).mul ((Lp.stronglyMeasurable g).measurable.comp measurable_snd)
  have m1 : Measurable fun q : X × W => (step q, q.1) := hp.measurable.prodMk measurable_fst
  have m2 : Measurable fun q : X × W => (q.1, step q) := measurable_fst.prodMk hp.measurable
  have h1 := integral_map m1.aemeasurable (hF.aestronglyMeasurable (μ := (π.prod κ).map (fun q => (step q, q.1))))
  have h2 := integral_map m2.aemeasurable (hF.aestronglyMeasurable (μ := (π.prod κ).map (fun q => (q.1, step q))))
  rw [hsym] at h1
  rw [← h1, h2]
  simp only [mul_comm]

theorem nextMean_le (hp : MeasurePreserving step (π.prod κ) π) (f : Lp ℝ 2 π) : ‖nextMean hp f‖ ≤ ‖f‖ := by
  rw [nextMean, ContinuousLinearMap.comp_apply]
  refine (ContinuousLinearMap.le_opNorm _ _).trans ?_
  rw [LinearIsometryEquiv.norm_map]
  have h1 : ‖(atStart π κ).toContinuousLinearMap‖ ≤ 1 := (atStart π κ).norm_toContinuousLinearMap_le
  have h2 : ‖(atNext hp).toContinuousLinearMap f‖ = ‖f‖ := (atNext hp).norm_map f
  rw [h2]
  exact mul_le_of_le_one_left (norm_nonneg _) h1

/-- A function that two steps leave as it is is constant, if every set of pairs can be reached. -/
theorem nextMean_fixed (hp : MeasurePreserving step (π.prod κ) π) (hpos : π.prod π ≪ (π.prod κ).map (fun q => (q.1, step q)))
    (q : Lp ℝ 2 π) (hq : nextMean hp (nextMean hp q) = q) : ∃ c : ℝ, q =ᵐ[π] fun _ => c := by
  have n1 := nextMean_le hp q
  have n2 := nextMean_le hp (nextMean hp q)
  rw [hq] at n2
  have hn : ‖nextMean hp q‖ = ‖q‖ := le_antisymm n1 n2
  have hzero : ‖atNext hp q - atStart π κ (nextMean hp q)‖ ^ 2 = 0 := by
    rw [@norm_sub_sq_real, (atNext hp).norm_map, (atStart π κ).norm_map]
    have : inner ℝ (atNext hp q) (atStart π κ (nextMean hp q)) = inner ℝ (nextMean hp q) (nextMean hp q) := by
      conv_rhs => rw [nextMean, ContinuousLinearMap.comp_apply, ContinuousLinearMap.adjoint_inner_left]
      rfl
    rw [this, real_inner_self_eq_norm_sq, hn]
    ring
  have heq : atNext hp q = atStart π κ (nextMean hp q) := by
    rw [pow_eq_zero_iff two_ne_zero, norm_eq_zero, sub_eq_zero] at hzero
    exact hzero
  have hae : ∀ᵐ w ∂(π.prod κ), q (step w) = nextMean hp q w.1 := by
    have e1 : atNext hp q =ᵐ[π.prod κ] q ∘ step := Lp.coeFn_compMeasurePreserving q hp
    have e2 : atStart π κ (nextMean hp q) =ᵐ[π.prod κ] nextMean hp q ∘ Prod.fst :=
      Lp.coeFn_compMeasurePreserving _ measurePreserving_fst
    rw [heq] at e1
    filter_upwards [e1, e2] with w h1 h2
    exact h1.symm.trans h2
  have m2 : Measurable fun q : X × W => (q.1, step q) := measurable_fst.prodMk hp.measurable
  have hS : MeasurableSet {p : X × X | q p.2 = nextMean hp q p.1} :=
    measurableSet_eq_fun ((Lp.stronglyMeasurable q).measurable.comp measurable_snd)
      ((Lp.stronglyMeasurable (nextMean hp q)).measurable.comp measurable_fst)
  have hmap : ∀ᵐ p ∂((π.prod κ).map fun q => (q.1, step q)), q p.2 = nextMean hp q p.1 :=
    (ae_map_iff m2.aemeasurable hS).2 hae
  have hprod : ∀ᵐ p ∂(π.prod π), q p.2 = nextMean hp q p.1 := hpos.ae_le hmap
  have hx := Measure.ae_ae_of_ae_prod hprod
  rcases eq_or_ne π 0 with h0 | h0
  · exact ⟨0, by simp [Filter.EventuallyEq, h0]⟩
  · have : (ae π).NeBot := ae_neBot.2 h0
    obtain ⟨x, hx⟩ := hx.exists
    exact ⟨nextMean hp q x, hx⟩

theorem nextMean_const (hp : MeasurePreserving step (π.prod κ) π) (q : Lp ℝ 2 π) (c : ℝ) (hc : q =ᵐ[π] fun _ => c) : nextMean hp q = q := by
  have e1 : atNext hp q =ᵐ[π.prod κ] q ∘ step := Lp.coeFn_compMeasurePreserving q hp
  have e2 : atStart π κ q =ᵐ[π.prod κ] q ∘ Prod.fst := Lp.coeFn_compMeasurePreserving _ measurePreserving_fst
  have heq : atNext hp q = atStart π κ q := by
    refine Lp.ext ?_
    filter_upwards [e1, e2, hp.quasiMeasurePreserving.ae hc, (measurePreserving_fst (μ := π) (ν := κ)).quasiMeasurePreserving.ae hc]
      with w h1 h2 h3 h4
    rw [h1, h2, Function.comp_apply, Function.comp_apply, h3, h4]
  refine ext_inner_right ℝ fun g => ?_
  have : inner ℝ (nextMean hp q) g = inner ℝ (atNext hp q) (atStart π κ g) := by
    rw [nextMean, ContinuousLinearMap.comp_apply, ContinuousLinearMap.adjoint_inner_left]
    rfl
  rw [this, heq, (atStart π κ).inner_map_map]

/-- The iterates converge to a constant. -/
theorem nextMean_tendsto (hp : MeasurePreserving step (π.prod κ) π)
    (hsym : (π.prod κ).map (fun q => (step q, q.1)) = (π.prod κ).map (fun q => (q.1, step q)))
    (hpos : π.prod π ≪ (π.prod κ).map (fun q => (q.1, step q))) (h : Lp ℝ 2 π) :
    ∃ (c : ℝ) (q : Lp ℝ 2 π), q =ᵐ[π] (fun _ => c) ∧ Tendsto (fun n => ((nextMean hp)^[n]) h) atTop (𝓝 q) := by
  obtain ⟨q, hq, hf⟩ := even_iterates (nextMean hp) (nextMean_symm hp hsym) (nextMean_le hp) h
  obtain ⟨c, hc⟩ := nextMean_fixed hp hpos q hf
  refine ⟨c, q, hc, ?_⟩
  have hodd : Tendsto (fun n => ((nextMean hp)^[2 * n + 1]) h) atTop (𝓝 q) := by
    have := ((nextMean hp).continuous.tendsto q).comp hq
    rw [nextMean_const hp q c hc] at this
    refine this.congr fun n => ?_
    rw [Function.comp_apply, ← Function.iterate_succ_apply' (nextMean hp)]
  rw [Metric.tendsto_atTop] at hq hodd ⊢
  intro ε hε
  obtain ⟨N1, h1⟩ := hq ε hε
  obtain ⟨N2, h2⟩ := hodd ε hε
  refine ⟨2 * N1 + 2 * N2 + 1, fun n hn => ?_⟩
  rcases Nat.even_or_odd' n with ⟨k, rfl | rfl⟩
  · exact h1 k (by omega)
  · exact h2 k (by omega)

theorem setIntegral_next (hp : MeasurePreserving step (π.prod κ) π)
    (hsym : (π.prod κ).map (fun q => (step q, q.1)) = (π.prod κ).map (fun q => (q.1, step q))) (h : Lp ℝ 2 π) {S : Set X}
    (hS : MeasurableSet S) (hfin : π S ≠ ⊤) : ∫ x in S, nextMean hp h x ∂π = ∫ w in step ⁻¹' S, h w.1 ∂(π.prod κ) := by
  have e1 : ∫ x in S, nextMean hp h x ∂π = inner ℝ (indicatorConstLp 2 hS hfin (1 : ℝ)) (nextMean hp h) :=
    (L2.inner_indicatorConstLp_one hS hfin _).symm
  rw [e1, ← nextMean_symm hp hsym, nextMean_inner, ← integral_indicator (hp.measurable hS)]
  refine integral_congr_ae ?_
  have e2 : (indicatorConstLp 2 hS hfin (1 : ℝ) : Lp ℝ 2 π) =ᵐ[π] S.indicator fun _ => (1 : ℝ) := indicatorConstLp_coeFn
  filter_upwards [hp.quasiMeasurePreserving.ae e2] with w hw
  rw [hw]
  by_cases hm : step w ∈ S
  · rw [Set.indicator_of_mem hm, Set.indicator_of_mem (show w ∈ step ⁻¹' S from hm), one_mul]
  · rw [Set.indicator_of_notMem hm, Set.indicator_of_notMem (show w ∉ step ⁻¹' S from hm), zero_mul]

theorem nextMean_nonneg (hp : MeasurePreserving step (π.prod κ) π)
    (hsym : (π.prod κ).map (fun q => (step q, q.1)) = (π.prod κ).map (fun q => (q.1, step q))) (h : Lp ℝ 2 π) (h0 : 0 ≤ᵐ[π] h) :
    0 ≤ᵐ[π] nextMean hp h := by
  refine ae_nonneg_of_forall_setIntegral_nonneg_of_sigmaFinite (fun S hS hfin => ?_) fun S hS hfin => ?_
  · exact integrableOn_Lp_of_measure_ne_top _ (by norm_num) hfin.ne
  · rw [setIntegral_next hp hsym h hS hfin.ne]
    refine setIntegral_nonneg_of_ae ?_
    exact (measurePreserving_fst (μ := π) (ν := κ)).quasiMeasurePreserving.ae h0

/-- One step on densities. -/
theorem stepLaw_withDensity (hp : MeasurePreserving step (π.prod κ) π)
    (hsym : (π.prod κ).map (fun q => (step q, q.1)) = (π.prod κ).map (fun q => (q.1, step q))) (h : Lp ℝ 2 π) (h0 : 0 ≤ᵐ[π] h) :
    stepLaw κ step (π.withDensity fun x => ENNReal.ofReal (h x)) = π.withDensity fun x => ENNReal.ofReal (nextMean hp h x) := by
  have hm : Measurable fun x => ENNReal.ofReal (h x) := (Lp.stronglyMeasurable h).measurable.ennreal_ofReal
  have hfin : ∀ S, MeasurableSet S → π S ≠ ⊤ → stepLaw κ step (π.withDensity fun x => ENNReal.ofReal (h x)) S =
      (π.withDensity fun x => ENNReal.ofReal (nextMean hp h x)) S := by
    intro S hS hSf
    have hpre := hp.measurable hS
    have hpf : (π.prod κ) (step ⁻¹' S) ≠ ⊤ := by rw [hp.measure_preimage hS.nullMeasurableSet]; exact hSf
    rw [stepLaw, Measure.map_apply hp.measurable hS, prod_withDensity_left hm, withDensity_apply _ hpre, withDensity_apply _ hS]
    rw [← ofReal_integral_eq_lintegral_ofReal, ← ofReal_integral_eq_lintegral_ofReal, setIntegral_next hp hsym h hS hSf]
    · exact integrableOn_Lp_of_measure_ne_top _ (by norm_num) hSf
    · exact ae_restrict_of_ae (nextMean_nonneg hp hsym h h0)
    · have h1 : IntegrableOn (atStart π κ h) (step ⁻¹' S) (π.prod κ) := integrableOn_Lp_of_measure_ne_top _ (by norm_num) hpf
      have e2 : atStart π κ h =ᵐ[π.prod κ] h ∘ Prod.fst := Lp.coeFn_compMeasurePreserving _ measurePreserving_fst
      exact h1.congr (ae_restrict_of_ae e2)
    · exact ae_restrict_of_ae ((measurePreserving_fst (μ := π) (ν := κ)).quasiMeasurePreserving.ae h0)
  ext S hS
  have hU : ⋃ i, S ∩ spanningSets π i = S := by rw [← Set.inter_iUnion, iUnion_spanningSets, Set.inter_univ]
  have hmono : Monotone fun i => S ∩ spanningSets π i := fun i j hij =>
    Set.inter_subset_inter_right _ (monotone_spanningSets π hij)
  rw [← hU, hmono.measure_iUnion, hmono.measure_iUnion]
  refine iSup_congr fun i => hfin _ (hS.inter (measurableSet_spanningSets π i)) ?_
  exact ((measure_mono Set.inter_subset_right).trans_lt (measure_spanningSets_lt_top π i)).ne

/-- The distribution after `n` steps. -/
noncomputable def stepLaws (κ : Measure W) (step : X × W → X) (μ : Measure X) : Nat → Measure X
  | 0 => μ
  | n + 1 => stepLaw κ step (stepLaws κ step μ n)

theorem stepLaws_withDensity (hp : MeasurePreserving step (π.prod κ) π)
    (hsym : (π.prod κ).map (fun q => (step q, q.1)) = (π.prod κ).map (fun q => (q.1, step q))) (h : Lp ℝ 2 π) (h0 : 0 ≤ᵐ[π] h) (n : Nat) :
    0 ≤ᵐ[π] ((nextMean hp)^[n]) h ∧
    stepLaws κ step (π.withDensity fun x => ENNReal.ofReal (h x)) n = π.withDensity fun x => ENNReal.ofReal (((nextMean hp)^[n]) h x) := by
  induction n with
  | zero => exact ⟨h0, rfl⟩
  | succ n ih =>
    rw [Function.iterate_succ_apply', stepLaws, ih.2]
    exact ⟨nextMean_nonneg hp hsym _ ih.1, stepLaw_withDensity hp hsym _ ih.1⟩

/-- What long runs are meant to do: on all sets of bounded target measure the distribution becomes proportional to the target; if the target is
infinite, its probability vanishes. -/
def Mixes (π : Measure X) (κ : Measure W) (step : X × W → X) (μ : Measure X) : Prop :=
  ∀ (C : ENNReal) (ε : ℝ), C ≠ ⊤ → 0 < ε → ∃ N, ∀ n ≥ N, ∀ K, MeasurableSet K → π K ≤ C →
    |(stepLaws κ step μ n).real K - (μ Set.univ * (π K / π Set.univ)).toReal| ≤ ε

theorem stepLaw_univ (hm : Measurable step) (μ : Measure X) [SFinite μ] : stepLaw κ step μ Set.univ = μ Set.univ := by
  rw [stepLaw, Measure.map_apply hm MeasurableSet.univ, Set.preimage_univ, ← Set.univ_prod_univ, Measure.prod_prod, measure_univ (μ := κ), mul_one]

theorem stepLaws_univ (hm : Measurable step) (μ : Measure X) [IsFiniteMeasure μ] (n : Nat) :
    IsFiniteMeasure (stepLaws κ step μ n) ∧ stepLaws κ step μ n Set.univ = μ Set.univ := by
  induction n with
  | zero => exact ⟨inferInstanceAs (IsFiniteMeasure μ), rfl⟩
  | succ n ih =>
    have := ih.1
    have h : stepLaws κ step μ (n + 1) Set.univ = μ Set.univ := (stepLaw_univ hm _).trans ih.2
    exact ⟨⟨by rw [h]; exact measure_lt_top _ _⟩, h⟩

theorem Mixes_L2 (hp : MeasurePreserving step (π.prod κ) π)
    (hsym : (π.prod κ).map (fun q => (step q, q.1)) = (π.prod κ).map (fun q => (q.1, step q)))
    (hpos : π.prod π ≪ (π.prod κ).map (fun q => (q.1, step q))) (h : Lp ℝ 2 π) (h0 : 0 ≤ᵐ[π] h)
    (hfin : IsFiniteMeasure (π.withDensity fun x => ENNReal.ofReal (h x))) :
    Mixes π κ step (π.withDensity fun x => ENNReal.ofReal (h x)) := by
  obtain ⟨c, q, hc, hq⟩ := nextMean_tendsto hp hsym hpos h
  set μ := π.withDensity fun x => ENNReal.ofReal (h x) with hμ
  have hreal : ∀ n K, MeasurableSet K → π K ≠ ⊤ → (stepLaws κ step μ n).real K = ∫ x in K, ((nextMean hp)^[n]) h x ∂π := by
    intro n K hK hKf
    obtain ⟨h1, h2⟩ := stepLaws_withDensity hp hsym h h0 n
    rw [h2, Measure.real, withDensity_apply _ hK, ← ofReal_integral_eq_lintegral_ofReal
      (integrableOn_Lp_of_measure_ne_top _ (by norm_num) hKf) (ae_restrict_of_ae h1), ENNReal.toReal_ofReal]
    exact setIntegral_nonneg_of_ae h1
  have hlim : ∀ n K, MeasurableSet K → π K ≠ ⊤ → |(stepLaws κ step μ n).real K - c * π.real K| ≤
      ‖((nextMean hp)^[n]) h - q‖ * Real.sqrt (π.real K) := by
    intro n K hK hKf
    have e1 : c * π.real K = ∫ x in K, q x ∂π := by
      rw [integral_congr_ae (ae_restrict_of_ae hc)]
      simp [mul_comm]
    rw [hreal n K hK hKf, e1, ← L2.inner_indicatorConstLp_one hK hKf, ← L2.inner_indicatorConstLp_one hK hKf, ← inner_sub_right]
    refine (abs_real_inner_le_norm _ _).trans ?_
    rw [norm_indicatorConstLp (by norm_num) (by norm_num), mul_comm]
    simp [Real.sqrt_eq_rpow]
  have hcst : ∀ K, MeasurableSet K → π K ≠ ⊤ → (μ Set.univ * (π K / π Set.univ)).toReal = c * π.real K := by
    intro K hK hKf
    rcases eq_or_ne (π Set.univ) ⊤ with ht | ht
    · have : c = 0 := by
        by_contra hc0
        have hm := (Lp.memLp q)
        rw [memLp_congr_ae hc, memLp_const_iff (by norm_num) (by norm_num)] at hm
        simp [hc0, ht] at hm
      rw [this, ht]
      simp
    · have h1 : ∀ n, (stepLaws κ step μ n).real Set.univ = μ.real Set.univ := fun n => by
        rw [Measure.real, (stepLaws_univ hp.measurable μ n).2]; rfl
      have h2 : Tendsto (fun n => (stepLaws κ step μ n).real Set.univ) atTop (𝓝 (c * π.real Set.univ)) := by
        rw [tendsto_iff_norm_sub_tendsto_zero]
        refine squeeze_zero (fun _ => norm_nonneg _) (fun n => hlim n _ MeasurableSet.univ ht) ?_
        have := (tendsto_iff_norm_sub_tendsto_zero.1 hq).mul_const (Real.sqrt (π.real Set.univ))
        rwa [zero_mul] at this
      have h3 := tendsto_nhds_unique (h2.congr h1) tendsto_const_nhds
      rw [ENNReal.toReal_mul, ENNReal.toReal_div]
      change μ.real Set.univ * (π.real K / π.real Set.univ) = _
      rw [← h3]
      rcases eq_or_ne (π Set.univ) 0 with hz | hz
      · have : π.real K = 0 := by
          rw [measureReal_eq_zero_iff hKf]
          exact measure_mono_null (Set.subset_univ _) hz
        rw [this]; simp
      · have : π.real Set.univ ≠ 0 := by rw [Ne, measureReal_eq_zero_iff ht]; exact hz
        field_simp
  intro C ε hC hε
  have h1 := (tendsto_iff_norm_sub_tendsto_zero.1 hq).mul_const (Real.sqrt C.toReal)
  rw [zero_mul] at h1
  obtain ⟨N, hN⟩ := (h1.eventually (gt_mem_nhds hε)).exists_forall_of_atTop
  refine ⟨N, fun n hn K hK hKC => ?_⟩
  have hKf : π K ≠ ⊤ := ne_top_of_le_ne_top hC hKC
  rw [hcst K hK hKf]
  refine (hlim n K hK hKf).trans ((mul_le_mul_of_nonneg_left (Real.sqrt_le_sqrt ?_) (norm_nonneg _)).trans (hN n hn).le)
  exact ENNReal.toReal_mono hC hKC

theorem stepLaw_add (hm : Measurable step) (μ ν : Measure X) [SFinite μ] [SFinite ν] :
    stepLaw κ step (μ + ν) = stepLaw κ step μ + stepLaw κ step ν := by
  rw [stepLaw, Measure.add_prod, Measure.map_add _ _ hm]
  rfl

theorem stepLaws_add (hm : Measurable step) (μ ν : Measure X) [IsFiniteMeasure μ] [IsFiniteMeasure ν] (n : Nat) :
    stepLaws κ step (μ + ν) n = stepLaws κ step μ n + stepLaws κ step ν n := by
  induction n with
  | zero => rfl
  | succ n ih =>
    have := (stepLaws_univ (κ := κ) hm μ n).1
    have := (stepLaws_univ (κ := κ) hm ν n).1
    rw [stepLaws, ih, stepLaw_add hm]
    rfl

theorem stepLaws_shift (μ : Measure X) (m n : Nat) : stepLaws κ step μ (m + n) = stepLaws κ step (stepLaws κ step μ m) n := by
  induction n with
  | zero => rfl
  | succ n ih => rw [← Nat.add_assoc, stepLaws, ih]; rfl

theorem Mixes_approx (hm : Measurable step) (μ : Measure X) [IsFiniteMeasure μ] (h : ∀ δ : ℝ, 0 < δ → ∃ (m : Nat) (ν s : Measure X),
    IsFiniteMeasure ν ∧ IsFiniteMeasure s ∧ stepLaws κ step μ m = ν + s ∧ Mixes π κ step ν ∧ s.real Set.univ ≤ δ) : Mixes π κ step μ := by
  intro C ε hC hε
  obtain ⟨m, ν, s, hν, hs, hms, hmix, hsmall⟩ := h (ε / 2) (by linarith)
  obtain ⟨N, hN⟩ := hmix C (ε / 2) hC (by linarith)
  refine ⟨m + N, fun n hn K hK hKC => ?_⟩
  obtain ⟨n, rfl⟩ := Nat.exists_eq_add_of_le (show m ≤ n by omega)
  have h1 := hN n (by omega) K hK hKC
  have hu := (stepLaws_univ (κ := κ) hm μ m).2
  rw [stepLaws_shift, ← hu, hms]
  have f1 := (stepLaws_univ (κ := κ) hm ν n).1
  obtain ⟨f2, u2⟩ := stepLaws_univ (κ := κ) hm s n
  have hr : (π K / π Set.univ).toReal ≤ 1 := by
    refine ENNReal.toReal_le_of_le_ofReal zero_le_one ?_
    rw [ENNReal.ofReal_one]
    exact ENNReal.div_le_of_le_mul (by rw [one_mul]; exact measure_mono (Set.subset_univ _))
  have hr0 : 0 ≤ (π K / π Set.univ).toReal := ENNReal.toReal_nonneg
  rw [stepLaws_add hm, measureReal_add_apply]
  have e : ((ν + s) Set.univ * (π K / π Set.univ)).toReal =
      (ν Set.univ * (π K / π Set.univ)).toReal + s.real Set.univ * (π K / π Set.univ).toReal := by
    rw [Measure.add_apply, ENNReal.toReal_mul, ENNReal.toReal_mul, ENNReal.toReal_add (measure_ne_top _ _) (measure_ne_top _ _), add_mul]
    rfl
  rw [e]
  have h2 : (stepLaws κ step s n).real K ≤ s.real Set.univ := by
    have : (stepLaws κ step s n).real K ≤ (stepLaws κ step s n).real Set.univ := measureReal_mono (Set.subset_univ _)
    rwa [Measure.real, Measure.real, u2] at this
  have h3 : 0 ≤ (stepLaws κ step s n).real K := measureReal_nonneg
  have h4 : s.real Set.univ * (π K / π Set.univ).toReal ≤ s.real Set.univ := mul_le_of_le_one_right measureReal_nonneg hr
  have h5 : 0 ≤ s.real Set.univ * (π K / π Set.univ).toReal := mul_nonneg measureReal_nonneg hr0
  rw [abs_le] at h1 ⊢
  constructor <;> linarith

theorem Mixes_ac (hp : MeasurePreserving step (π.prod κ) π)
    (hsym : (π.prod κ).map (fun q => (step q, q.1)) = (π.prod κ).map (fun q => (q.1, step q)))
    (hpos : π.prod π ≪ (π.prod κ).map (fun q => (q.1, step q))) (μ : Measure X) [IsFiniteMeasure μ] (hac : μ ≪ π) : Mixes π κ step μ := by
  set f := μ.rnDeriv π with hf
  have hfm : Measurable f := Measure.measurable_rnDeriv μ π
  have hμ : μ = π.withDensity f := (Measure.withDensity_rnDeriv_eq μ π hac).symm
  have hS : ∀ k : Nat, MeasurableSet {x | f x ≤ k} := fun k => measurableSet_le hfm measurable_const
  have hmono : Monotone fun k : Nat => {x | f x ≤ k} := fun i j hij x hx =>
    le_trans (show f x ≤ i from hx) (show (i : ENNReal) ≤ j by exact_mod_cast hij)
  have hlim : Tendsto (fun k : Nat => μ {x | f x ≤ k}ᶜ) atTop (𝓝 0) := by
    have h1 : ⋂ k : Nat, {x | f x ≤ k}ᶜ = {x | f x = ⊤} := by
      ext x
      simp only [Set.mem_iInter, Set.mem_compl_iff, Set.mem_setOf_eq, not_le]
      constructor
      · intro h
        by_contra hne
        obtain ⟨k, hk⟩ := ENNReal.exists_nat_gt hne
        exact absurd (h k) (not_lt.2 hk.le)
      · intro h k
        rw [h]
        exact ENNReal.natCast_lt_top k
    have h2 : μ {x | f x = ⊤} = 0 := by
      refine hac ?_
      have := Measure.rnDeriv_lt_top μ π
      rw [ae_iff] at this
      simpa using this
    have := tendsto_measure_iInter_atTop (μ := μ) (s := fun k : Nat => {x | f x ≤ k}ᶜ) (fun k => (hS k).compl.nullMeasurableSet)
      (fun i j hij => Set.compl_subset_compl.2 (hmono hij)) ⟨0, measure_ne_top _ _⟩
    rwa [h1, h2] at this
  refine Mixes_approx hp.measurable μ fun δ hδ => ?_
  have hev := (ENNReal.tendsto_nhds_zero.1 hlim (ENNReal.ofReal δ) (by simpa using hδ)).exists
  obtain ⟨k, hk⟩ := hev
  set S := {x | f x ≤ k} with hSdef
  refine ⟨0, μ.restrict S, μ.restrict Sᶜ, inferInstance, inferInstance, (Measure.restrict_add_restrict_compl (hS k)).symm, ?_, ?_⟩
  · set g : X → ℝ := fun x => (S.indicator f x).toReal with hg
    have hgm : Measurable g := (hfm.indicator (hS k)).ennreal_toReal
    have hgk : ∀ x, S.indicator f x ≤ k := by
      intro x
      by_cases hx : x ∈ S
      · rw [Set.indicator_of_mem hx]; exact hx
      · rw [Set.indicator_of_notMem hx]; exact zero_le
    have hgt : ∀ x, ENNReal.ofReal (g x) = S.indicator f x := fun x =>
      ENNReal.ofReal_toReal (ne_top_of_le_ne_top (ENNReal.natCast_ne_top k) (hgk x))
    have hrestr : μ.restrict S = π.withDensity (S.indicator f) := by
      rw [withDensity_indicator (hS k), hμ, restrict_withDensity (hS k)]
    have hL2 : MemLp g 2 π := by
      refine ⟨hgm.aestronglyMeasurable, ?_⟩
      rw [eLpNorm_lt_top_iff_lintegral_rpow_enorm_lt_top (by norm_num) (by norm_num)]
      have hb : ∀ x, ‖g x‖ₑ ^ (2 : ENNReal).toReal ≤ k * S.indicator f x := by
        intro x
        have e1 : ‖g x‖ₑ = S.indicator f x := by
          rw [← hgt x, Real.enorm_eq_ofReal ENNReal.toReal_nonneg]
        rw [e1, ENNReal.toReal_ofNat, ENNReal.rpow_two, sq]
        exact mul_le_mul_left (hgk x) _
      refine (lintegral_mono hb).trans_lt ?_
      rw [lintegral_const_mul _ (hfm.indicator (hS k)), ← setLIntegral_univ (S.indicator f), ← withDensity_apply _ MeasurableSet.univ, ← hrestr]
      exact ENNReal.mul_lt_top (ENNReal.natCast_lt_top k) (measure_lt_top _ _)
    have hco : ∀ᵐ x ∂π, (hL2.toLp g) x = g x := hL2.coeFn_toLp
    have hd : π.withDensity (fun x => ENNReal.ofReal ((hL2.toLp g) x)) = μ.restrict S := by
      rw [hrestr]
      refine withDensity_congr_ae ?_
      filter_upwards [hco] with x hx
      rw [hx, hgt]
    rw [← hd]
    refine Mixes_L2 hp hsym hpos (hL2.toLp g) ?_ ?_
    · filter_upwards [hco] with x hx
      rw [hx]
      exact ENNReal.toReal_nonneg
    · rw [hd]; infer_instance
  · rw [Measure.real, Measure.restrict_apply MeasurableSet.univ, Set.univ_inter]
    exact ENNReal.toReal_le_of_le_ofReal hδ.le hk

/-- Every starting distribution: rejected proposals become rarer and rarer, accepted ones are distributed with a density. -/
theorem Mixes_all (hp : MeasurePreserving step (π.prod κ) π)
    (hsym : (π.prod κ).map (fun q => (step q, q.1)) = (π.prod κ).map (fun q => (q.1, step q)))
    (hpos : π.prod π ≪ (π.prod κ).map (fun q => (q.1, step q))) (r : X → ENNReal) (hr : Measurable r) (hr1 : ∀ x, r x < 1)
    (hdec : ∀ μ : Measure X, IsFiniteMeasure μ → ∃ ν : Measure X, ν ≪ π ∧ stepLaw κ step μ = ν + μ.withDensity r)
    (μ : Measure X) [IsFiniteMeasure μ] : Mixes π κ step μ := by
  have hrn : ∀ n, Measurable fun x => r x ^ n := fun n => hr.pow_const n
  have hle : ∀ n x, r x ^ n ≤ 1 := fun n x => pow_le_one₀ (zero_le) (hr1 x).le
  have hwf : ∀ n, IsFiniteMeasure (μ.withDensity fun x => r x ^ n) := fun n => by
    refine isFiniteMeasure_withDensity ?_
    exact ne_top_of_le_ne_top (measure_ne_top μ Set.univ) ((lintegral_mono (hle n)).trans (by simp))
  have hsplit : ∀ n, ∃ ν : Measure X, IsFiniteMeasure ν ∧ ν ≪ π ∧ stepLaws κ step μ n = ν + μ.withDensity fun x => r x ^ n := by
    intro n
    induction n with
    | zero => exact ⟨0, inferInstance, Measure.AbsolutelyContinuous.zero _, by simp [stepLaws]⟩
    | succ n ih =>
      obtain ⟨ν, hν, hac, he⟩ := ih
      have := hwf n
      obtain ⟨a, ha, hea⟩ := hdec ν hν
      obtain ⟨b, hb, heb⟩ := hdec (μ.withDensity fun x => r x ^ n) this
      have e : stepLaws κ step μ (n + 1) = (a + ν.withDensity r + b) + μ.withDensity fun x => r x ^ (n + 1) := by
        rw [stepLaws, he, stepLaw_add hp.measurable, hea, heb, ← withDensity_mul _ (hrn n) hr]
        simp only [pow_succ]
        rw [← add_assoc]
        rfl
      have hfin := (stepLaws_univ (κ := κ) hp.measurable μ (n + 1)).1
      refine ⟨_, ?_, ?_, e⟩
      · refine ⟨lt_of_le_of_lt ?_ (measure_lt_top (stepLaws κ step μ (n + 1)) Set.univ)⟩
        rw [e, Measure.add_apply]
        exact le_self_add
      · exact ((ha.add_left ((withDensity_absolutelyContinuous _ _).trans hac)).add_left hb)
  have hlim : Tendsto (fun n => ∫⁻ x, r x ^ n ∂μ) atTop (𝓝 0) := by
    have := tendsto_lintegral_of_dominated_convergence (μ := μ) (F := fun n x => r x ^ n) (f := fun _ => 0) (fun _ => 1) hrn
      (fun n => Eventually.of_forall (hle n)) (by simp)
      (Eventually.of_forall fun x => ENNReal.tendsto_pow_atTop_nhds_zero_of_lt_one (hr1 x))
    simpa using this
  refine Mixes_approx hp.measurable μ fun δ hδ => ?_
  obtain ⟨n, hn⟩ := (ENNReal.tendsto_nhds_zero.1 hlim (ENNReal.ofReal δ) (by simpa using hδ)).exists
  obtain ⟨ν, hν, hac, he⟩ := hsplit n
  refine ⟨n, ν, _, hν, hwf n, he, Mixes_ac hp hsym hpos ν hac, ?_⟩
  rw [Measure.real, withDensity_apply _ MeasurableSet.univ, Measure.restrict_univ]
  exact ENNReal.toReal_le_of_le_ofReal hδ.le hn

end Chain

end Lop
