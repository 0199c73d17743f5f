import Verif.Proofs.Ergodic
import Mathlib.MeasureTheory.Measure.Decomposition.Hahn
import Mathlib.Probability.Independence.Basic
import Mathlib.Probability.Notation
import Mathlib.MeasureTheory.Order.Group.Lattice
import Mathlib.MeasureTheory.Function.Floor

/-! # Averages along long runs of chains -/

namespace Lop

open MeasureTheory Filter Topology ENNReal

variable {X W : Type*} [MeasurableSpace X] [MeasurableSpace W] {κ : Measure W} [IsProbabilityMeasure κ] {step : X × W → X}

/-- A measure and its common part with another one that is close to it. -/
theorem common_part (a b : Measure X) [IsFiniteMeasure a] [IsFiniteMeasure b] (δ : ℝ)
    (h : ∀ S, MeasurableSet S → |a.real S - b.real S| ≤ δ) :
    ∃ c r s : Measure X, IsFiniteMeasure c ∧ IsFiniteMeasure r ∧ IsFiniteMeasure s ∧ a = c + r ∧ b = c + s ∧
      r.real Set.univ ≤ δ ∧ s.real Set.univ ≤ δ := by
  obtain ⟨H, hH, h1, h2⟩ := hahn_decomposition a b
  have l1 : b.restrict H ≤ a.restrict H := by
    refine Measure.le_iff.2 fun t ht => ?_
    rw [Measure.restrict_apply ht, Measure.restrict_apply ht]
    exact h1 _ (ht.inter hH) Set.inter_subset_right
  have l2 : a.restrict Hᶜ ≤ b.restrict Hᶜ := by
    refine Measure.le_iff.2 fun t ht => ?_
    rw [Measure.restrict_apply ht, Measure.restrict_apply ht]
    exact h2 _ (ht.inter hH.compl) Set.inter_subset_right
  refine ⟨b.restrict H + a.restrict Hᶜ, a.restrict H - b.restrict H, b.restrict Hᶜ - a.restrict Hᶜ, inferInstance, inferInstance, inferInstance,
    ?_, ?_, ?_, ?_⟩
  · rw [add_right_comm, add_comm (b.restrict H), Measure.sub_add_cancel_of_le l1, Measure.restrict_add_restrict_compl hH]
  · rw [add_assoc, add_comm (a.restrict Hᶜ), Measure.sub_add_cancel_of_le l2, Measure.restrict_add_restrict_compl hH]
  · rw [Measure.real, Measure.sub_apply MeasurableSet.univ l1, Measure.restrict_apply_univ, Measure.restrict_apply_univ,
      ENNReal.toReal_sub_of_le (h1 H hH subset_rfl) (measure_ne_top _ _)]
    exact (le_abs_self _).trans (h H hH)
  · rw [Measure.real, Measure.sub_apply MeasurableSet.univ l2, Measure.restrict_apply_univ, Measure.restrict_apply_univ,
      ENNReal.toReal_sub_of_le (h2 _ hH.compl subset_rfl) (measure_ne_top _ _)]
    have := (abs_le.1 (h _ hH.compl)).1
    simp only [Measure.real] at this
    linarith

/-- Steps bring measures no further apart. -/
theorem stepLaws_close (hm : Measurable step) (a b : Measure X) [IsFiniteMeasure a] [IsFiniteMeasure b] (δ : ℝ)
    (h : ∀ S, MeasurableSet S → |a.real S - b.real S| ≤ δ) (n : Nat) (K : Set X) :
    |(stepLaws κ step a n).real K - (stepLaws κ step b n).real K| ≤ δ := by
  obtain ⟨c, r, s, hc, hr, hs, rfl, rfl, h1, h2⟩ := common_part a b δ h
  have f1 := stepLaws_univ (κ := κ) hm c n
  have f2 := stepLaws_univ (κ := κ) hm r n
  have f3 := stepLaws_univ (κ := κ) hm s n
  have := f1.1
  have := f2.1
  have := f3.1
  rw [stepLaws_add hm, stepLaws_add hm, measureReal_add_apply, measureReal_add_apply]
  have b1 : (stepLaws κ step r n).real K ≤ δ := by
    refine (measureReal_mono (Set.subset_univ _)).trans ?_
    rw [Measure.real, f2.2]
    exact h1
  have b2 : (stepLaws κ step s n).real K ≤ δ := by
    refine (measureReal_mono (Set.subset_univ _)).trans ?_
    rw [Measure.real, f3.2]
    exact h2
  have p1 : 0 ≤ (stepLaws κ step r n).real K := measureReal_nonneg
  have p2 : 0 ≤ (stepLaws κ step s n).real K := measureReal_nonneg
  rw [abs_le]
  constructor <;> linarith

/-- The joint probability that a chain is in a set now and later. -/
theorem pair_limit {π : Measure X} [IsFiniteMeasure π] (hz : π ≠ 0) (hm : Measurable step) (hmix : ∀ μ : Measure X, IsFiniteMeasure μ → Mixes π κ step μ)
    (μ : Measure X) [IsProbabilityMeasure μ] {K : Set X} (hK : MeasurableSet K) (ε : ℝ) (hε : 0 < ε) :
    ∃ N, ∀ i ≥ N, |(stepLaws κ step μ i).real K - π.real K / π.real Set.univ| ≤ ε ∧
      ∀ m ≥ N, |(stepLaws κ step ((stepLaws κ step μ i).restrict K) m).real K - (π.real K / π.real Set.univ) ^ 2| ≤ ε := by
  have hz0 : π Set.univ ≠ 0 := fun h => hz (Measure.measure_univ_eq_zero.1 h)
  set P : Measure X := (π Set.univ)⁻¹ • π with hP
  have hPf : IsFiniteMeasure P := ⟨by
    rw [hP, Measure.smul_apply, smul_eq_mul, ENNReal.inv_mul_cancel hz0 (measure_ne_top _ _)]
    exact ENNReal.one_lt_top⟩
  have hPr : ∀ S, P.real S = π.real S / π.real Set.univ := by
    intro S
    rw [hP, Measure.real, Measure.smul_apply, smul_eq_mul, ENNReal.toReal_mul, ENNReal.toReal_inv, Measure.real, Measure.real]
    rw [div_eq_inv_mul]
  obtain ⟨N1, h1⟩ := hmix μ inferInstance (π Set.univ) (ε / 2) (measure_ne_top _ _) (by linarith)
  obtain ⟨N2, h2⟩ := hmix (P.restrict K) inferInstance (π Set.univ) (ε / 2) (measure_ne_top _ _) (by linarith)
  have h1' : ∀ i ≥ N1, ∀ S, MeasurableSet S → |(stepLaws κ step μ i).real S - P.real S| ≤ ε / 2 := by
    intro i hi S hS
    have := h1 i hi S hS (measure_mono (Set.subset_univ _))
    rwa [measure_univ, one_mul, ENNReal.toReal_div, ← Measure.real, ← Measure.real, ← hPr] at this
  refine ⟨max N1 N2, fun i hi => ⟨?_, fun m hn => ?_⟩⟩
  · rw [← hPr]
    exact (h1' i (le_trans (le_max_left _ _) hi) K hK).trans (by linarith)
  · have hfi := (stepLaws_univ (κ := κ) hm μ i).1
    have e1 := stepLaws_close (κ := κ) hm ((stepLaws κ step μ i).restrict K) (P.restrict K) (ε / 2) (fun S hS => by
      rw [measureReal_restrict_apply hS, measureReal_restrict_apply hS]
      exact h1' i (le_trans (le_max_left _ _) hi) _ (hS.inter hK)) m K
    have e2 := h2 m (le_trans (le_max_right _ _) hn) K hK (measure_mono (Set.subset_univ _))
    rw [Measure.restrict_apply_univ, ENNReal.toReal_mul, ENNReal.toReal_div] at e2
    have e3 : (P K).toReal * ((π K).toReal / (π Set.univ).toReal) = (π.real K / π.real Set.univ) ^ 2 := by
      have := hPr K
      simp only [Measure.real] at this ⊢
      rw [this]; ring
    rw [e3] at e2
    have := abs_add_le ((stepLaws κ step ((stepLaws κ step μ i).restrict K) m).real K - (stepLaws κ step (P.restrict K) m).real K)
      ((stepLaws κ step (P.restrict K) m).real K - (π.real K / π.real Set.univ) ^ 2)
    rw [sub_add_sub_cancel] at this
    linarith

/-- A sum over pairs that are small apart from few. -/
theorem pair_sum_le (a : Nat → Nat → ℝ) (n N : Nat) {ε : ℝ} (hε : 0 ≤ ε) (h1 : ∀ i j, a i j ≤ 1)
    (h2 : ∀ i j, N ≤ i → N ≤ j → (i + N ≤ j ∨ j + N ≤ i) → a i j ≤ ε) :
    ∑ i ∈ Finset.range n, ∑ j ∈ Finset.range n, a i j ≤ n ^ 2 * ε + 4 * N * n := by
  have hrow : ∀ i, N ≤ i → ∑ j ∈ Finset.range n, a i j ≤ n * ε + 3 * N := by
    intro i hi
    have hb : ∀ j ∈ Finset.range n, a i j ≤ ε + ((if j ∈ Finset.range N then 1 else 0) + if j ∈ Finset.Ico (i - N) (i + N) then (1 : ℝ) else 0) := by
      intro j _
      have h0 : (0 : ℝ) ≤ if j ∈ Finset.range N then 1 else 0 := by split_ifs <;> norm_num
      have h0' : (0 : ℝ) ≤ if j ∈ Finset.Ico (i - N) (i + N) then 1 else 0 := by split_ifs <;> norm_num
      by_cases hj : j ∈ Finset.range N
      · have := h1 i j
        rw [if_pos hj] at *
        linarith
      · by_cases hj' : j ∈ Finset.Ico (i - N) (i + N)
        · have := h1 i j
          rw [if_pos hj'] at *
          linarith
        · simp only [Finset.mem_range, Finset.mem_Ico, not_and, not_lt, not_le] at hj hj'
          have := h2 i j hi hj (by omega)
          linarith
    refine (Finset.sum_le_sum hb).trans ?_
    rw [Finset.sum_add_distrib, Finset.sum_add_distrib, Finset.sum_const, Finset.card_range, nsmul_eq_mul]
    have c1 : ∑ j ∈ Finset.range n, (if j ∈ Finset.range N then (1 : ℝ) else 0) ≤ N := by
      rw [Finset.sum_boole]
      exact_mod_cast (Finset.card_le_card (t := Finset.range N) fun x hx => (Finset.mem_filter.1 hx).2).trans (Finset.card_range N).le
    have c2 : ∑ j ∈ Finset.range n, (if j ∈ Finset.Ico (i - N) (i + N) then (1 : ℝ) else 0) ≤ 2 * N := by
      rw [Finset.sum_boole]
      have := (Finset.card_le_card (s := (Finset.range n).filter (· ∈ Finset.Ico (i - N) (i + N))) (t := Finset.Ico (i - N) (i + N))
        fun x hx => (Finset.mem_filter.1 hx).2)
      rw [Nat.card_Ico] at this
      exact_mod_cast this.trans (by omega)
    linarith
  have hany : ∀ i, ∑ j ∈ Finset.range n, a i j ≤ n := fun i => by
    refine (Finset.sum_le_sum fun j _ => h1 i j).trans ?_
    simp
  have hb : ∀ i ∈ Finset.range n, ∑ j ∈ Finset.range n, a i j ≤ (n * ε + 3 * N) + n * if i ∈ Finset.range N then 1 else 0 := by
    intro i _
    by_cases hi : i ∈ Finset.range N
    · rw [if_pos hi]
      have := hany i
      have h0 : 0 ≤ (n : ℝ) * ε := by positivity
      have h0' : (0 : ℝ) ≤ N := by positivity
      linarith
    · rw [if_neg hi]
      have := hrow i (by simpa using hi)
      linarith
  refine (Finset.sum_le_sum hb).trans ?_
  rw [Finset.sum_add_distrib, Finset.sum_const, Finset.card_range, nsmul_eq_mul, ← Finset.mul_sum]
  have c1 : ∑ j ∈ Finset.range n, (if j ∈ Finset.range N then (1 : ℝ) else 0) ≤ N := by
    rw [Finset.sum_boole]
    exact_mod_cast (Finset.card_le_card (t := Finset.range N) fun x hx => (Finset.mem_filter.1 hx).2).trans (Finset.card_range N).le
  have := mul_le_mul_of_nonneg_left c1 (Nat.cast_nonneg (α := ℝ) n)
  nlinarith

section Run

variable {Ω : Type*} [MeasurableSpace Ω] {μ : Measure Ω} [IsProbabilityMeasure μ] {chain : Nat → Ω → X} {w : Nat → Ω → W}

/-- The distribution of a later state on the event that an earlier one lies in a set. -/
theorem run_restrict (hm : Measurable step) (hc : ∀ i, Measurable (chain i)) (hw : ∀ i, Measurable (w i)) (hlaw : ∀ i, μ.map (w i) = κ)
    (hstep : ∀ i ω, chain (i + 1) ω = step (chain i ω, w i ω))
    (hind : ∀ i k, i ≤ k → ProbabilityTheory.IndepFun (fun ω => (chain i ω, chain k ω)) (w k) μ) {K : Set X} (hK : MeasurableSet K) (i m : Nat) :
    (μ.restrict (chain i ⁻¹' K)).map (chain (i + m)) = stepLaws κ step ((μ.map (chain i)).restrict K) m := by
  induction m with
  | zero => rw [Nat.add_zero, stepLaws, Measure.restrict_map (hc i) hK]
  | succ m ih =>
    have hA : MeasurableSet (chain i ⁻¹' K) := hc i hK
    have hpair : (μ.restrict (chain i ⁻¹' K)).map (fun ω => (chain (i + m) ω, w (i + m) ω)) =
        ((μ.restrict (chain i ⁻¹' K)).map (chain (i + m))).prod κ := by
      symm
      refine Measure.prod_eq fun S T hS hT => ?_
      rw [Measure.map_apply ((hc _).prodMk (hw _)) (hS.prod hT), Measure.map_apply (hc _) hS,
        Measure.restrict_apply (((hc _).prodMk (hw _)) (hS.prod hT)), Measure.restrict_apply ((hc _) hS), ← hlaw (i + m),
        Measure.map_apply (hw _) hT]
      have := (hind i (i + m) (Nat.le_add_right _ _)).measure_inter_preimage_eq_mul (K ×ˢ S) T (hK.prod hS) hT
      convert this using 2
      · ext ω
        simp only [Set.mem_inter_iff, Set.mem_preimage, Set.mem_prod]
        tauto
      · congr 1
        ext ω
        simp only [Set.mem_inter_iff, Set.mem_preimage, Set.mem_prod]
        tauto
    have e : chain (i + (m + 1)) = step ∘ fun ω => (chain (i + m) ω, w (i + m) ω) := funext fun ω => hstep (i + m) ω
    rw [e, ← Measure.map_map hm ((hc _).prodMk (hw _)), hpair, ih]
    rfl

/-- Whether a state lies in the set, less its limiting probability. -/
noncomputable def dev (K : Set X) (p : ℝ) (x : X) : ℝ := K.indicator 1 x - p

theorem dev_abs {K : Set X} {p : ℝ} (h0 : 0 ≤ p) (h1 : p ≤ 1) (x : X) : |dev K p x| ≤ 1 := by
  unfold dev
  by_cases hx : x ∈ K
  · rw [Set.indicator_of_mem hx, Pi.one_apply, abs_le]; constructor <;> linarith
  · rw [Set.indicator_of_notMem hx, abs_le]; constructor <;> linarith

theorem dev_meas {K : Set X} (hK : MeasurableSet K) (p : ℝ) : Measurable (dev K p) :=
  (measurable_one.indicator hK).sub measurable_const

theorem dev_mul {K : Set X} (hK : MeasurableSet K) (p : ℝ) {f g : Ω → X} (hf : Measurable f) (hg : Measurable g) :
    ∫ ω, dev K p (f ω) * dev K p (g ω) ∂μ = μ.real (f ⁻¹' K ∩ g ⁻¹' K) - p * μ.real (f ⁻¹' K) - p * μ.real (g ⁻¹' K) + p ^ 2 := by
  have e : ∀ ω, dev K p (f ω) * dev K p (g ω) = (f ⁻¹' K ∩ g ⁻¹' K).indicator 1 ω - p * (f ⁻¹' K).indicator 1 ω - p * (g ⁻¹' K).indicator 1 ω + p ^ 2 := by
    intro ω
    unfold dev
    by_cases h1 : f ω ∈ K <;> by_cases h2 : g ω ∈ K <;> simp [Set.indicator, h1, h2] <;> ring
  simp only [e]
  have hi : ∀ A : Set Ω, MeasurableSet A → Integrable (A.indicator (1 : Ω → ℝ)) μ := fun A hA =>
    (integrable_const (1 : ℝ)).indicator hA
  have hI : ∀ A : Set Ω, MeasurableSet A → ∫ ω, A.indicator (1 : Ω → ℝ) ω ∂μ = μ.real A := fun A hA => integral_indicator_one hA
  have h3 := hi _ ((hf hK).inter (hg hK))
  have h4 := (hi _ (hf hK)).const_mul p
  have h5 := (hi _ (hg hK)).const_mul p
  have h6 : Integrable (fun ω => (f ⁻¹' K ∩ g ⁻¹' K).indicator 1 ω - p * (f ⁻¹' K).indicator 1 ω) μ := h3.sub h4
  have h7 : Integrable (fun ω => (f ⁻¹' K ∩ g ⁻¹' K).indicator 1 ω - p * (f ⁻¹' K).indicator 1 ω - p * (g ⁻¹' K).indicator 1 ω) μ := h6.sub h5
  rw [integral_add h7 (integrable_const _), integral_sub h6 h5, integral_sub h3 h4, integral_const_mul, integral_const_mul,
    hI _ ((hf hK).inter (hg hK)), hI _ (hf hK), hI _ (hg hK), integral_const]
  simp

/-- The mean square of the deviations. -/
theorem run_square {π : Measure X} [IsFiniteMeasure π] (hz : π ≠ 0) (hmix : ∀ μ : Measure X, IsFiniteMeasure μ → Mixes π κ step μ)
    (hm : Measurable step) (hc : ∀ i, Measurable (chain i)) (hw : ∀ i, Measurable (w i)) (hlaw : ∀ i, μ.map (w i) = κ)
    (hstep : ∀ i ω, chain (i + 1) ω = step (chain i ω, w i ω))
    (hind : ∀ i k, i ≤ k → ProbabilityTheory.IndepFun (fun ω => (chain i ω, chain k ω)) (w k) μ) {K : Set X} (hK : MeasurableSet K)
    (ε : ℝ) (hε : 0 < ε) :
    ∃ N : Nat, ∀ n b : Nat, ∫ ω, (∑ j ∈ Finset.range n, dev K (π.real K / π.real Set.univ) (chain (b + j) ω)) ^ 2 ∂μ ≤ n ^ 2 * ε + 4 * N * n := by
  have h0law : IsProbabilityMeasure (μ.map (chain 0)) := Measure.isProbabilityMeasure_map (hc 0).aemeasurable
  obtain ⟨N, hN⟩ := pair_limit hz hm hmix (μ.map (chain 0)) hK (ε / 3) (by linarith)
  set p := π.real K / π.real Set.univ with hp
  have hp0 : 0 ≤ p := by positivity
  have hp1 : p ≤ 1 := div_le_one_of_le₀ (measureReal_mono (Set.subset_univ _)) measureReal_nonneg
  have hl : ∀ i, μ.map (chain i) = stepLaws κ step (μ.map (chain 0)) i := by
    intro i
    have := run_restrict hm hc hw hlaw hstep hind MeasurableSet.univ 0 i
    simpa using this
  have hone : ∀ i ≥ N, |μ.real (chain i ⁻¹' K) - p| ≤ ε / 3 := by
    intro i hi
    have := (hN i hi).1
    rwa [← hl, Measure.real, Measure.map_apply (hc i) hK, ← Measure.real] at this
  have htwo : ∀ i ≥ N, ∀ m ≥ N, |μ.real (chain i ⁻¹' K ∩ chain (i + m) ⁻¹' K) - p ^ 2| ≤ ε / 3 := by
    intro i hi m hmN
    have := (hN i hi).2 m hmN
    rwa [← hl, ← run_restrict hm hc hw hlaw hstep hind hK, Measure.real, Measure.map_apply (hc _) hK, Measure.restrict_apply ((hc _) hK), ← Measure.real,
      Set.inter_comm] at this
  have hfar : ∀ i j, N ≤ i → N ≤ j → (i + N ≤ j ∨ j + N ≤ i) → ∫ ω, dev K p (chain i ω) * dev K p (chain j ω) ∂μ ≤ ε := by
    intro i j hi hj hij
    rw [dev_mul hK p (hc i) (hc j)]
    have hpair : |μ.real (chain i ⁻¹' K ∩ chain j ⁻¹' K) - p ^ 2| ≤ ε / 3 := by
      rcases hij with h | h
      · obtain ⟨m, rfl⟩ := Nat.exists_eq_add_of_le (show i ≤ j by omega)
        exact htwo i hi m (by omega)
      · obtain ⟨m, rfl⟩ := Nat.exists_eq_add_of_le (show j ≤ i by omega)
        rw [Set.inter_comm]
        exact htwo j hj m (by omega)
    have a1 := (abs_le.1 (hone i hi)).1
    have a2 := (abs_le.1 (hone j hj)).1
    have a3 := (abs_le.1 hpair).2
    nlinarith [mul_le_mul_of_nonneg_left a1 hp0, mul_le_mul_of_nonneg_left a2 hp0]
  have hbd : ∀ i j, Integrable (fun ω => dev K p (chain i ω) * dev K p (chain j ω)) μ := by
    intro i j
    refine Integrable.of_bound (((dev_meas hK p).comp (hc i)).mul ((dev_meas hK p).comp (hc j))).aestronglyMeasurable 1 (Eventually.of_forall fun ω => ?_)
    rw [Real.norm_eq_abs, abs_mul]
    exact mul_le_one₀ (dev_abs hp0 hp1 _) (abs_nonneg _) (dev_abs hp0 hp1 _)
  refine ⟨N, fun n b => ?_⟩
  have e : ∫ ω, (∑ j ∈ Finset.range n, dev K p (chain (b + j) ω)) ^ 2 ∂μ =
      ∑ i ∈ Finset.range n, ∑ j ∈ Finset.range n, ∫ ω, dev K p (chain (b + i) ω) * dev K p (chain (b + j) ω) ∂μ := by
    simp only [sq, Finset.sum_mul_sum]
    rw [integral_finset_sum _ fun i _ => integrable_finset_sum _ fun j _ => hbd _ _]
    exact Finset.sum_congr rfl fun i _ => integral_finset_sum _ fun j _ => hbd _ _
  rw [e]
  refine pair_sum_le _ n N hε.le (fun i j => ?_) fun i j hi hj hij => hfar _ _ (by omega) (by omega) (by omega)
  have : ∫ ω, dev K p (chain (b + i) ω) * dev K p (chain (b + j) ω) ∂μ ≤ ∫ _, (1 : ℝ) ∂μ := by
    refine integral_mono (hbd _ _) (integrable_const _) fun ω => ?_
    refine (le_abs_self _).trans ?_
    rw [abs_mul]
    exact mul_le_one₀ (dev_abs hp0 hp1 _) (abs_nonneg _) (dev_abs hp0 hp1 _)
  simpa using this

/-- The mean deviation of the average of a function from its mean vanishes. -/
def AveragesTo (μ : Measure Ω) (chain : Nat → Ω → X) (f : X → ℝ) (v : ℝ) : Prop :=
  ∀ ε : ℝ, 0 < ε → ∃ N : Nat, ∀ n ≥ N, ∀ b : Nat, ∫ ω, |(∑ j ∈ Finset.range n, f (chain (b + j) ω)) / n - v| ∂μ ≤ ε

theorem averages_indicator {K : Set X} (hK : MeasurableSet K) {p : ℝ} (hp0 : 0 ≤ p) (hp1 : p ≤ 1) (hc : ∀ i, Measurable (chain i))
    (h : ∀ ε : ℝ, 0 < ε → ∃ N : Nat, ∀ n b : Nat, ∫ ω, (∑ j ∈ Finset.range n, dev K p (chain (b + j) ω)) ^ 2 ∂μ ≤ n ^ 2 * ε + 4 * N * n) :
    AveragesTo μ chain (K.indicator 1) p := by
  intro ε hε
  obtain ⟨N, hN⟩ := h (ε ^ 2 / 2) (by positivity)
  obtain ⟨M, hM⟩ := exists_nat_gt (8 * N / ε ^ 2)
  refine ⟨M + 1, fun n hn b => ?_⟩
  have hn0 : (0 : ℝ) < n := by exact_mod_cast (by omega : 0 < n)
  have hdm : ∀ j, Measurable fun ω => dev K p (chain j ω) := fun j => (dev_meas hK p).comp (hc j)
  have hD : ∀ ω, (∑ j ∈ Finset.range n, K.indicator (1 : X → ℝ) (chain (b + j) ω)) / n - p = (∑ j ∈ Finset.range n, dev K p (chain (b + j) ω)) / n := by
    intro ω
    simp only [dev, Finset.sum_sub_distrib, Finset.sum_const, Finset.card_range, nsmul_eq_mul]
    field_simp
  simp only [hD]
  have hb : ∀ ω, |∑ j ∈ Finset.range n, dev K p (chain (b + j) ω)| ≤ n := by
    intro ω
    refine (Finset.abs_sum_le_sum_abs _ _).trans ((Finset.sum_le_sum fun j _ => dev_abs hp0 hp1 _).trans ?_)
    simp
  have hSm : Measurable fun ω => ∑ j ∈ Finset.range n, dev K p (chain (b + j) ω) := Finset.measurable_sum _ fun j _ => hdm _
  have i2 : Integrable (fun ω => (∑ j ∈ Finset.range n, dev K p (chain (b + j) ω)) ^ 2) μ := by
    refine Integrable.of_bound (hSm.pow_const 2).aestronglyMeasurable ((n : ℝ) ^ 2) (Eventually.of_forall fun ω => ?_)
    rw [Real.norm_eq_abs, abs_pow]
    exact pow_le_pow_left₀ (abs_nonneg _) (hb ω) 2
  have i1 : Integrable (fun ω => |(∑ j ∈ Finset.range n, dev K p (chain (b + j) ω)) / n|) μ := by
    refine Integrable.of_bound (hSm.div_const _).abs.aestronglyMeasurable 1 (Eventually.of_forall fun ω => ?_)
    rw [Real.norm_eq_abs, abs_abs, abs_div, Nat.abs_cast, div_le_one hn0]
    exact hb ω
  have hle : ∫ ω, |(∑ j ∈ Finset.range n, dev K p (chain (b + j) ω)) / n| ∂μ ≤
      ∫ ω, (ε / 2 + 1 / (2 * ε * n ^ 2) * (∑ j ∈ Finset.range n, dev K p (chain (b + j) ω)) ^ 2) ∂μ := by
    refine integral_mono i1 ((integrable_const _).add (i2.const_mul _)) fun ω => ?_
    set x := |(∑ j ∈ Finset.range n, dev K p (chain (b + j) ω)) / n| with hx
    have e2 : 1 / (2 * ε * n ^ 2) * (∑ j ∈ Finset.range n, dev K p (chain (b + j) ω)) ^ 2 = x ^ 2 / (2 * ε) := by
      rw [hx, sq_abs]; field_simp
    simp only [e2]
    rw [← sub_nonneg]
    have : ε / 2 + x ^ 2 / (2 * ε) - x = (x - ε) ^ 2 / (2 * ε) := by field_simp; ring
    rw [this]
    positivity
  refine hle.trans ?_
  rw [integral_add (integrable_const _) (i2.const_mul _), integral_const_mul, integral_const]
  have h1 := mul_le_mul_of_nonneg_left (hN n b) (show 0 ≤ 1 / (2 * ε * n ^ 2) by positivity)
  have h2 : 1 / (2 * ε * n ^ 2) * (n ^ 2 * (ε ^ 2 / 2) + 4 * N * n) = ε / 4 + 2 * N / (ε * n) := by field_simp; ring
  have h3 : 2 * N / (ε * n) ≤ ε / 4 := by
    rw [div_le_iff₀ (by positivity)]
    have hMn : (M : ℝ) ≤ n := by exact_mod_cast (by omega : M ≤ n)
    have : 8 * (N : ℝ) < n * ε ^ 2 := by
      have := (div_lt_iff₀ (by positivity)).1 (hM.trans_le hMn)
      linarith
    nlinarith
  simp only [probReal_univ, smul_eq_mul, one_mul]
  linarith

theorem averages_sub_int {f : X → ℝ} (hf : Measurable f) {B : ℝ} (hB : ∀ x, |f x| ≤ B) (hc : ∀ i, Measurable (chain i)) (n b : Nat) (v : ℝ) :
    Integrable (fun ω => |(∑ j ∈ Finset.range n, f (chain (b + j) ω)) / n - v|) μ := by
  have hSm : Measurable fun ω => ∑ j ∈ Finset.range n, f (chain (b + j) ω) := Finset.measurable_sum _ fun j _ => hf.comp (hc _)
  refine Integrable.of_bound ((hSm.div_const _).sub_const v).abs.aestronglyMeasurable (n * B / n + |v|) (Eventually.of_forall fun ω => ?_)
  rw [Real.norm_eq_abs, abs_abs]
  refine (abs_sub _ _).trans (add_le_add ?_ le_rfl)
  rw [abs_div, Nat.abs_cast]
  refine div_le_div_of_nonneg_right ?_ (Nat.cast_nonneg _)
  refine (Finset.abs_sum_le_sum_abs _ _).trans ((Finset.sum_le_sum fun j _ => hB _).trans ?_)
  simp

/-- Bounded functions whose averages converge. -/
def Averaged (μ : Measure Ω) (chain : Nat → Ω → X) (f : X → ℝ) (v : ℝ) : Prop :=
  Measurable f ∧ (∃ B : ℝ, ∀ x, |f x| ≤ B) ∧ AveragesTo μ chain f v

theorem Averaged_add (hc : ∀ i, Measurable (chain i)) {f g : X → ℝ} {v v' : ℝ} (hf : Averaged μ chain f v) (hg : Averaged μ chain g v') :
    Averaged μ chain (fun x => f x + g x) (v + v') := by
  obtain ⟨mf, ⟨B, hB⟩, af⟩ := hf
  obtain ⟨mg, ⟨C, hC⟩, ag⟩ := hg
  have hBC : ∀ x, |f x + g x| ≤ B + C := fun x => (abs_add_le _ _).trans (add_le_add (hB x) (hC x))
  refine ⟨mf.add mg, ⟨B + C, hBC⟩, fun ε hε => ?_⟩
  obtain ⟨N, hN⟩ := af (ε / 2) (by linarith)
  obtain ⟨M, hM⟩ := ag (ε / 2) (by linarith)
  refine ⟨max N M, fun n hn b => ?_⟩
  have h1 := hN n (le_trans (le_max_left _ _) hn) b
  have h2 := hM n (le_trans (le_max_right _ _) hn) b
  have i1 := averages_sub_int (μ := μ) mf hB hc n b v
  have i2 := averages_sub_int (μ := μ) mg hC hc n b v'
  have h3 : ∫ ω, |(∑ j ∈ Finset.range n, (f (chain (b + j) ω) + g (chain (b + j) ω))) / n - (v + v')| ∂μ ≤
      ∫ ω, (|(∑ j ∈ Finset.range n, f (chain (b + j) ω)) / n - v| + |(∑ j ∈ Finset.range n, g (chain (b + j) ω)) / n - v'|) ∂μ := by
    refine integral_mono (averages_sub_int (μ := μ) (mf.add mg) hBC hc n b (v + v')) (i1.add i2) fun ω => ?_
    have : (∑ j ∈ Finset.range n, (f (chain (b + j) ω) + g (chain (b + j) ω))) / n - (v + v') =
        ((∑ j ∈ Finset.range n, f (chain (b + j) ω)) / n - v) + ((∑ j ∈ Finset.range n, g (chain (b + j) ω)) / n - v') := by
      rw [Finset.sum_add_distrib, add_div]; ring
    simp only [this]
    exact abs_add_le _ _
  rw [integral_add i1 i2] at h3
  linarith

theorem Averaged_smul {f : X → ℝ} {v : ℝ} (hf : Averaged μ chain f v) (c : ℝ) :
    Averaged μ chain (fun x => c * f x) (c * v) := by
  obtain ⟨mf, ⟨B, hB⟩, af⟩ := hf
  refine ⟨mf.const_mul c, ⟨|c| * B, fun x => by rw [abs_mul]; exact mul_le_mul_of_nonneg_left (hB x) (abs_nonneg _)⟩, fun ε hε => ?_⟩
  obtain ⟨N, hN⟩ := af (ε / (|c| + 1)) (by positivity)
  refine ⟨N, fun n hn b => ?_⟩
  have h1 := hN n hn b
  have e : ∀ ω, |(∑ j ∈ Finset.range n, c * f (chain (b + j) ω)) / n - c * v| = |c| * |(∑ j ∈ Finset.range n, f (chain (b + j) ω)) / n - v| := by
    intro ω
    rw [← abs_mul, ← Finset.mul_sum, mul_div_assoc, mul_sub]
  simp only [e]
  rw [integral_const_mul]
  calc |c| * _ ≤ |c| * (ε / (|c| + 1)) := mul_le_mul_of_nonneg_left h1 (abs_nonneg _)
    _ ≤ ε := by
      rw [← mul_div_assoc, div_le_iff₀ (by positivity)]
      nlinarith [abs_nonneg c]

theorem Averaged_sum (hc : ∀ i, Measurable (chain i)) {ι : Type*} (s : Finset ι) (f : ι → X → ℝ) (v : ι → ℝ) (h : ∀ i ∈ s, Averaged μ chain (f i) (v i)) :
    Averaged μ chain (fun x => ∑ i ∈ s, f i x) (∑ i ∈ s, v i) := by
  classical
  induction s using Finset.induction_on with
  | empty =>
    refine ⟨measurable_const, ⟨0, by simp⟩, fun ε hε => ⟨0, fun n _ b => ?_⟩⟩
    simpa using hε.le
  | insert i s hi ih =>
    have h1 := Averaged_add hc (h i (Finset.mem_insert_self _ _)) (ih fun j hj => h j (Finset.mem_insert_of_mem hj))
    simpa only [Finset.sum_insert hi] using h1

/-- Averages of bounded functions converge if those of indicators do. -/
theorem averages_bounded {P : Measure X} [IsProbabilityMeasure P] (hc : ∀ i, Measurable (chain i))
    (hind : ∀ K, MeasurableSet K → AveragesTo μ chain (K.indicator 1) (P.real K)) {f : X → ℝ} (hf : Measurable f) {B : ℝ} (hB : ∀ x, |f x| ≤ B) :
    AveragesTo μ chain f (∫ x, f x ∂P) := by
  intro ε hε
  obtain ⟨k, hk⟩ := exists_nat_gt (3 / ε)
  have hk0 : (0 : ℝ) < k := lt_trans (by positivity) hk
  have hke : 1 / (k : ℝ) ≤ ε / 3 := by
    rw [div_le_iff₀ hk0]
    rw [div_lt_iff₀ hε] at hk
    linarith
  obtain ⟨M, hM⟩ := exists_nat_ge (k * B + 1)
  let A : ℤ → Set X := fun m => {x | ⌊k * f x⌋ = m}
  have hA : ∀ m, MeasurableSet (A m) := fun m => (Int.measurable_floor.comp (hf.const_mul _)) (measurableSet_singleton m)
  let g : X → ℝ := fun x => ∑ m ∈ Finset.Icc (-M : ℤ) M, (m / k : ℝ) * (A m).indicator 1 x
  have hg : ∀ x, g x = ⌊k * f x⌋ / k := by
    intro x
    have hmem : ⌊k * f x⌋ ∈ Finset.Icc (-M : ℤ) M := by
      have hb := abs_le.1 (hB x)
      have u1 : k * f x ≤ k * B := mul_le_mul_of_nonneg_left hb.2 hk0.le
      have u2 : -(k * B) ≤ k * f x := by nlinarith [hb.1]
      rw [Finset.mem_Icc]
      constructor
      · rw [Int.le_floor]; push_cast; linarith
      · have := Int.floor_le (k * f x)
        exact_mod_cast (by linarith : ((⌊k * f x⌋ : ℤ) : ℝ) ≤ M)
    simp only [g]
    rw [Finset.sum_eq_single_of_mem _ hmem]
    · rw [Set.indicator_of_mem (show x ∈ A _ from rfl), Pi.one_apply, mul_one]
    · intro m _ hm
      rw [Set.indicator_of_notMem (show x ∉ A m from fun h => hm h.symm), mul_zero]
  have hfg : ∀ x, |f x - g x| ≤ 1 / k := by
    intro x
    rw [hg, abs_le]
    have h1 := Int.floor_le (k * f x)
    have h2 := Int.lt_floor_add_one (k * f x)
    constructor
    · have : (⌊k * f x⌋ : ℝ) / k ≤ f x := by rw [div_le_iff₀ hk0]; linarith
      have h0 : 0 ≤ 1 / (k : ℝ) := by positivity
      linarith
    · rw [sub_le_iff_le_add, ← add_div, le_div_iff₀ hk0]; nlinarith
  obtain ⟨mg, ⟨C, hC⟩, ag⟩ := Averaged_sum hc (Finset.Icc (-M : ℤ) M) (fun m x => (m / k : ℝ) * (A m).indicator 1 x) (fun m => (m / k : ℝ) * P.real (A m))
    fun m _ => Averaged_smul ⟨measurable_one.indicator (hA m), ⟨1, fun x => by
      by_cases hx : x ∈ A m
      · rw [Set.indicator_of_mem hx]; simp
      · rw [Set.indicator_of_notMem hx]; simp⟩, hind _ (hA m)⟩ _
  have mg' : Measurable g := mg
  have hC' : ∀ x, |g x| ≤ C := hC
  have hgi : Integrable g P := Integrable.of_bound mg'.aestronglyMeasurable C (Eventually.of_forall hC')
  have hfi : Integrable f P := Integrable.of_bound hf.aestronglyMeasurable B (Eventually.of_forall hB)
  have hint : ∫ x, g x ∂P = ∑ m ∈ Finset.Icc (-M : ℤ) M, (m / k : ℝ) * P.real (A m) := by
    simp only [g]
    have hi : ∀ m : ℤ, Integrable (fun x => (m / k : ℝ) * (A m).indicator 1 x) P := fun m => ((integrable_const (1 : ℝ)).indicator (hA m)).const_mul _
    rw [integral_finset_sum _ fun m _ => hi m]
    refine Finset.sum_congr rfl fun m _ => ?_
    rw [integral_const_mul]
    congr 1
    exact integral_indicator_one (hA m)
  have hclose : |∫ x, g x ∂P - ∫ x, f x ∂P| ≤ 1 / k := by
    rw [← integral_sub hgi hfi]
    refine (abs_integral_le_integral_abs).trans ?_
    have : ∫ x, |g x - f x| ∂P ≤ ∫ _, (1 / k : ℝ) ∂P := by
      refine integral_mono (hgi.sub hfi).abs (integrable_const _) fun x => ?_
      rw [abs_sub_comm]
      exact hfg x
    simpa using this
  obtain ⟨N, hN⟩ := ag (ε / 3) (by linarith)
  refine ⟨max N 1, fun n hn b => ?_⟩
  have hn0 : (0 : ℝ) < n := by exact_mod_cast (le_trans (le_max_right _ _) hn)
  have h1 := hN n (le_trans (le_max_left _ _) hn) b
  rw [← hint] at h1
  have h1' : ∫ ω, |(∑ j ∈ Finset.range n, g (chain (b + j) ω)) / n - ∫ x, g x ∂P| ∂μ ≤ ε / 3 := h1
  have i1 := averages_sub_int (μ := μ) mg' hC' hc n b (∫ x, g x ∂P)
  have h3 : ∫ ω, |(∑ j ∈ Finset.range n, f (chain (b + j) ω)) / n - ∫ x, f x ∂P| ∂μ ≤
      ∫ ω, (|(∑ j ∈ Finset.range n, g (chain (b + j) ω)) / n - ∫ x, g x ∂P| + 2 / k) ∂μ := by
    refine integral_mono (averages_sub_int (μ := μ) hf hB hc n b _) (i1.add (integrable_const _)) fun ω => ?_
    have hs : |(∑ j ∈ Finset.range n, f (chain (b + j) ω)) / n - (∑ j ∈ Finset.range n, g (chain (b + j) ω)) / n| ≤ 1 / k := by
      rw [← sub_div, ← Finset.sum_sub_distrib, abs_div, Nat.abs_cast, div_le_iff₀ hn0]
      refine (Finset.abs_sum_le_sum_abs _ _).trans ((Finset.sum_le_sum fun j _ => hfg _).trans ?_)
      rw [Finset.sum_const, Finset.card_range, nsmul_eq_mul, mul_comm]
    have e : (∑ j ∈ Finset.range n, f (chain (b + j) ω)) / n - ∫ x, f x ∂P =
        ((∑ j ∈ Finset.range n, f (chain (b + j) ω)) / n - (∑ j ∈ Finset.range n, g (chain (b + j) ω)) / n) +
        ((∑ j ∈ Finset.range n, g (chain (b + j) ω)) / n - ∫ x, g x ∂P) + (∫ x, g x ∂P - ∫ x, f x ∂P) := by ring
    have t1 := abs_add_le (((∑ j ∈ Finset.range n, f (chain (b + j) ω)) / n - (∑ j ∈ Finset.range n, g (chain (b + j) ω)) / n) +
        ((∑ j ∈ Finset.range n, g (chain (b + j) ω)) / n - ∫ x, g x ∂P)) (∫ x, g x ∂P - ∫ x, f x ∂P)
    have t2 := abs_add_le ((∑ j ∈ Finset.range n, f (chain (b + j) ω)) / n - (∑ j ∈ Finset.range n, g (chain (b + j) ω)) / n)
        ((∑ j ∈ Finset.range n, g (chain (b + j) ω)) / n - ∫ x, g x ∂P)
    rw [← e] at t1
    have : (2 : ℝ) / k = 1 / k + 1 / k := by ring
    simp only
    rw [this]
    linarith
  rw [integral_add i1 (integrable_const _), integral_const] at h3
  have : (2 : ℝ) / k = 1 / k + 1 / k := by ring
  rw [this] at h3
  simp only [probReal_univ, smul_eq_mul, one_mul] at h3
  linarith

end Run

end Lop
