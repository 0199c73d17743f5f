import Mathlib.MeasureTheory.Integral.Bochner.Basic
import Mathlib.MeasureTheory.Integral.Bochner.Set
import Mathlib.MeasureTheory.Function.ConditionalExpectation.Real
import Mathlib.MeasureTheory.Function.ConditionalExpectation.PullOut
import Mathlib.Topology.Algebra.InfiniteSum.ENNReal
import Mathlib.Analysis.PSeries
import Mathlib.Probability.Process.Filtration

/-! # Helper lemmas: a strong law of large numbers for bounded uncorrelated variables -/

namespace Lop

open MeasureTheory Filter Topology

variable {Ω : Type*} [MeasurableSpace Ω] {μ : Measure Ω} [IsProbabilityMeasure μ]

theorem bounded_integrable {f : Ω → ℝ} (hf : Measurable f) {c : ℝ} (hc : ∀ ω, |f ω| ≤ c) : Integrable f μ :=
  Integrable.of_bound hf.aestronglyMeasurable c (.of_forall fun ω => by rw [Real.norm_eq_abs]; exact hc ω)

/-- Second moment of a sum of uncorrelated bounded variables. -/
theorem second_moment {X : ℕ → Ω → ℝ} (hX : ∀ i, Measurable (X i)) (hb : ∀ i ω, |X i ω| ≤ 1)
    (ho : ∀ i j, i ≠ j → ∫ ω, X i ω * X j ω ∂μ = 0) (k : ℕ) : ∫ ω, (∑ i ∈ Finset.range k, X i ω) ^ 2 ∂μ ≤ k := by
  have hint : ∀ i j, Integrable (fun ω => X i ω * X j ω) μ := fun i j =>
    bounded_integrable ((hX i).mul (hX j)) (c := 1) fun ω => by
      rw [abs_mul]
      exact mul_le_one₀ (hb i ω) (abs_nonneg _) (hb j ω)
  have e : ∫ ω, (∑ i ∈ Finset.range k, X i ω) ^ 2 ∂μ = ∑ i ∈ Finset.range k, ∫ ω, X i ω * X i ω ∂μ := by
    simp_rw [sq, Finset.sum_mul_sum]
    rw [integral_finsetSum _ fun i _ => integrable_finsetSum _ fun j _ => hint i j]
    refine Finset.sum_congr rfl fun i hi => ?_
    rw [integral_finsetSum _ fun j _ => hint i j, Finset.sum_eq_single i]
    · intro j _ hj
      exact ho i j hj.symm
    · intro h
      exact absurd hi h
  rw [e]
  refine (Finset.sum_le_card_nsmul _ _ 1 fun i _ => ?_).trans (by simp)
  have : ∫ ω, X i ω * X i ω ∂μ ≤ ∫ _, (1 : ℝ) ∂μ := integral_mono (hint i i) (integrable_const _) fun ω => by
    have := hb i ω
    simp only
    rw [← abs_mul_abs_self]
    exact mul_le_one₀ this (abs_nonneg _) this
  simpa using this

/-- Along the squares the averages tend to 0. -/
theorem squares_tendsto {X : ℕ → Ω → ℝ} (hX : ∀ i, Measurable (X i)) (hb : ∀ i ω, |X i ω| ≤ 1)
    (ho : ∀ i j, i ≠ j → ∫ ω, X i ω * X j ω ∂μ = 0) :
    ∀ᵐ ω ∂μ, Tendsto (fun j : ℕ => (∑ i ∈ Finset.range (j ^ 2), X i ω) / (j : ℝ) ^ 2) atTop (𝓝 0) := by
  set Z : ℕ → Ω → ℝ := fun j ω => ((∑ i ∈ Finset.range (j ^ 2), X i ω) / (j : ℝ) ^ 2) ^ 2 with hZ
  have hS : ∀ k, Measurable fun ω => ∑ i ∈ Finset.range k, X i ω := fun k =>
    Finset.measurable_sum _ fun i _ => hX i
  have hZm : ∀ j, Measurable (Z j) := fun j => ((hS _).div_const _).pow_const 2
  have hsb : ∀ k ω, |∑ i ∈ Finset.range k, X i ω| ≤ k := by
    intro k ω
    refine (Finset.abs_sum_le_sum_abs _ _).trans ((Finset.sum_le_card_nsmul _ _ 1 fun i _ => hb i ω).trans (by simp))
  have hl : ∀ j, ∫⁻ ω, ENNReal.ofReal (Z j ω) ∂μ ≤ ENNReal.ofReal (1 / (j : ℝ) ^ 2) := by
    intro j
    have hi : Integrable (fun ω => (∑ i ∈ Finset.range (j ^ 2), X i ω) ^ 2) μ :=
      bounded_integrable ((hS _).pow_const 2) (c := ((j ^ 2 : ℕ) : ℝ) ^ 2) fun ω => by
        rw [abs_pow]
        exact pow_le_pow_left₀ (abs_nonneg _) (hsb _ ω) 2
    have hz : ∀ ω, Z j ω = (∑ i ∈ Finset.range (j ^ 2), X i ω) ^ 2 / ((j : ℝ) ^ 2) ^ 2 := fun ω => div_pow _ _ _
    rw [← ofReal_integral_eq_lintegral_ofReal]
    · refine ENNReal.ofReal_le_ofReal ?_
      rw [show ∫ ω, Z j ω ∂μ = ∫ ω, (∑ i ∈ Finset.range (j ^ 2), X i ω) ^ 2 / ((j : ℝ) ^ 2) ^ 2 ∂μ from
        integral_congr_ae (.of_forall hz), integral_div]
      have h1 := second_moment hX hb ho (j ^ 2)
      push_cast at h1
      rcases Nat.eq_zero_or_pos j with h0 | h0
      · simp [h0]
      · have h0' : (0 : ℝ) < (j : ℝ) ^ 2 := by positivity
        rw [div_le_div_iff₀ (by positivity) h0']
        nlinarith
    · exact (hi.div_const _).congr (.of_forall fun ω => (hz ω).symm)
    · exact .of_forall fun ω => sq_nonneg _
  have hsum : ∫⁻ ω, ∑' j, ENNReal.ofReal (Z j ω) ∂μ ≠ ⊤ := by
    rw [lintegral_tsum fun j => (hZm j).ennreal_ofReal.aemeasurable]
    refine ne_top_of_le_ne_top ?_ (ENNReal.tsum_le_tsum hl)
    have hs : Summable fun j : ℕ => 1 / (j : ℝ) ^ 2 := Real.summable_one_div_nat_pow.2 (by norm_num)
    rw [← ENNReal.ofReal_tsum_of_nonneg (fun j => by positivity) hs]
    exact ENNReal.ofReal_ne_top
  have hae := ae_lt_top (Measurable.ennreal_tsum fun j => (hZm j).ennreal_ofReal) hsum
  filter_upwards [hae] with ω hω
  have h1 := ENNReal.tendsto_atTop_zero_of_tsum_ne_top hω.ne
  have h2 := (ENNReal.tendsto_toReal ENNReal.zero_ne_top).comp h1
  simp only [Function.comp_def, ENNReal.toReal_zero] at h2
  have h3 : Tendsto (fun j => Z j ω) atTop (𝓝 0) := h2.congr fun j => ENNReal.toReal_ofReal (sq_nonneg _)
  have h4 := (Real.continuous_sqrt.tendsto 0).comp h3
  simp only [Real.sqrt_zero, Function.comp_def, hZ, Real.sqrt_sq_eq_abs] at h4
  exact (tendsto_zero_iff_abs_tendsto_zero _).2 h4

/-- The strong law of large numbers for bounded uncorrelated variables. -/
theorem strong_law_bounded {X : ℕ → Ω → ℝ} (hX : ∀ i, Measurable (X i)) (hb : ∀ i ω, |X i ω| ≤ 1)
    (ho : ∀ i j, i ≠ j → ∫ ω, X i ω * X j ω ∂μ = 0) :
    ∀ᵐ ω ∂μ, Tendsto (fun k : ℕ => (∑ i ∈ Finset.range k, X i ω) / (k : ℝ)) atTop (𝓝 0) := by
  filter_upwards [squares_tendsto hX hb ho] with ω hω
  have hsq : Tendsto Nat.sqrt atTop atTop := by
    refine tendsto_atTop.2 fun b => ?_
    filter_upwards [eventually_ge_atTop (b * b)] with k hk
    exact Nat.le_sqrt.2 hk
  have h1 := (hω.comp hsq).abs
  have h2 : Tendsto (fun k : ℕ => 2 / (Nat.sqrt k : ℝ)) atTop (𝓝 0) :=
    (tendsto_natCast_atTop_atTop.comp hsq).const_div_atTop 2
  have h3 := h1.add h2
  simp only [abs_zero, add_zero] at h3
  refine squeeze_zero_norm' ?_ h3
  filter_upwards [eventually_ge_atTop 1] with k hk
  set j := Nat.sqrt k with hj
  have hj1 : 1 ≤ j := Nat.le_sqrt.2 (by simpa using hk)
  have hjk : j ^ 2 ≤ k := Nat.sqrt_le' k
  have hkj : k < (j + 1) ^ 2 := Nat.lt_succ_sqrt' k
  have hj' : (0 : ℝ) < j := by exact_mod_cast hj1
  have hk' : (0 : ℝ) < k := by exact_mod_cast hk
  have hjk' : (j : ℝ) ^ 2 ≤ k := by exact_mod_cast hjk
  have hd : |∑ i ∈ Finset.range k, X i ω - ∑ i ∈ Finset.range (j ^ 2), X i ω| ≤ 2 * j := by
    have e : ∑ i ∈ Finset.range k, X i ω - ∑ i ∈ Finset.range (j ^ 2), X i ω = ∑ i ∈ Finset.Ico (j ^ 2) k, X i ω := by
      rw [Finset.sum_Ico_eq_sub _ hjk]
    rw [e]
    refine (Finset.abs_sum_le_sum_abs _ _).trans ((Finset.sum_le_card_nsmul _ _ 1 fun i _ => hb i ω).trans ?_)
    rw [Nat.card_Ico, nsmul_eq_mul, mul_one]
    have : k - j ^ 2 ≤ 2 * j := by
      have : (j + 1) ^ 2 = j ^ 2 + 2 * j + 1 := by ring
      omega
    exact_mod_cast this
  rw [Real.norm_eq_abs, abs_div, abs_of_pos hk', Function.comp_apply, abs_div, abs_of_pos (show (0 : ℝ) < (j : ℝ) ^ 2 by positivity)]
  have h5 : |∑ i ∈ Finset.range k, X i ω| ≤ |∑ i ∈ Finset.range (j ^ 2), X i ω| + 2 * j := by
    have := abs_sub_abs_le_abs_sub (∑ i ∈ Finset.range k, X i ω) (∑ i ∈ Finset.range (j ^ 2), X i ω)
    linarith
  calc |∑ i ∈ Finset.range k, X i ω| / (k : ℝ) ≤ (|∑ i ∈ Finset.range (j ^ 2), X i ω| + 2 * j) / (j : ℝ) ^ 2 :=
        div_le_div₀ (by positivity) h5 (by positivity) hjk'
    _ = _ := by
        simp only [hj] at hj' ⊢
        field_simp

/-- A variable that is 0 on average given the past is uncorrelated with everything in the past. -/
theorem uncorrelated_past {Ω : Type*} {m mΩ : MeasurableSpace Ω} {μ : Measure Ω} [IsProbabilityMeasure μ] (hm : m ≤ mΩ) {Z Y : Ω → ℝ} (hZ : Measurable[m] Z)
    {c : ℝ} (hZb : ∀ ω, |Z ω| ≤ c) (hY : Integrable Y μ) (h0 : μ[Y | m] =ᵐ[μ] 0) : ∫ ω, Z ω * Y ω ∂μ = 0 := by
  have h1 : μ[Z * Y | m] =ᵐ[μ] Z * μ[Y | m] :=
    condExp_stronglyMeasurable_mul_of_bound hm hZ.stronglyMeasurable hY c
      (.of_forall fun ω => by rw [Real.norm_eq_abs]; exact hZb ω)
  have h2 : ∫ ω, (Z * Y) ω ∂μ = ∫ ω, (μ[Z * Y | m]) ω ∂μ := (integral_condExp hm).symm
  have h3 : ∫ ω, (μ[Z * Y | m]) ω ∂μ = 0 := by
    rw [integral_congr_ae (h1.trans ((EventuallyEq.refl _ Z).mul h0))]
    simp
  simpa using h2.trans h3

end Lop
