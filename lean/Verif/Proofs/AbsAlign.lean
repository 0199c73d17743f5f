import Verif.Model.AbsAlign
import Verif.Spec.AbsAlign
import Verif.Proofs.AbsProbit
import Verif.Proofs.Basic
import Mathlib.MeasureTheory.Integral.IntervalIntegral.Basic
import Mathlib.MeasureTheory.Integral.IntegralEqImproper
import Mathlib.Tactic.Linarith
import Mathlib.Tactic.Ring
import Mathlib.Tactic.FieldSimp
import Mathlib.Tactic.Positivity
import Mathlib.Tactic.NormNum
import Mathlib.Algebra.BigOperators.Field

/-! # Helper lemmas for rating queries -/

namespace Lop

open Finset MeasureTheory ProbabilityTheory Spec

variable {M : Nat}

theorem foldl_add_sum {ι : Type*} (l : List ι) (g : ι → ℝ) (a : ℝ) :
    l.foldl (fun acc j => acc + g j) a = a + (l.map g).sum := by
  induction l generalizing a with
  | nil => simp
  | cons x l ih => rw [List.foldl_cons, ih, List.map_cons, List.sum_cons, add_assoc]

theorem fastSumQ_eq (f : Fin M → Fin M → ℝ) (p : Fin M → ℝ) (pq : ℝ) :
    fastSumQ f p pq = (∑ i, ∑ j, f i j * p i * p j / pq) / (M * M) := by
  rw [fastSumQ]
  congr 1
  have : ∀ (i : Fin M) (acc : ℝ), (List.finRange M).foldl (fun acc j => acc + f i j * p i * p j / pq) acc =
      acc + ∑ j, f i j * p i * p j / pq := by
    intro i acc
    rw [foldl_add_sum (List.finRange M) fun j => f i j * p i * p j / pq, ← List.ofFn_eq_map,
      List.sum_ofFn]
  simp only [this]
  rw [foldl_add_sum (List.finRange M) fun i => ∑ j, f i j * p i * p j / pq, ← List.ofFn_eq_map,
    List.sum_ofFn, zero_add]

theorem fastSumQ_bayes (hM : 0 < M) (f : Fin M → Fin M → ℝ) (p : Fin M → ℝ) (hp : ∀ w, 0 < p w) :
    fastSumQ f p ((∑ w, p w) / M) = (∑ w, p w) / M * meanAlign f (bayes p) := by
  haveI : Nonempty (Fin M) := ⟨⟨0, hM⟩⟩
  have hM' : (M : ℝ) ≠ 0 := by exact_mod_cast hM.ne'
  have hS : (∑ w, p w) ≠ 0 := (sum_pos (fun w _ => hp w) univ_nonempty).ne'
  rw [fastSumQ_eq, meanAlign, mul_sum, sum_div]
  refine sum_congr rfl fun i _ => ?_
  rw [mul_sum, sum_div]
  refine sum_congr rfl fun j _ => ?_
  unfold bayes
  field_simp

theorem alphaBeta_pos {v eps : ℝ} (hv : 0 < v) (he : 0 < eps) (he' : eps < 1 / 2) (sigma f : ℝ) :
    0 < (alphaBeta sigma v eps f).1 ∧ 0 < (alphaBeta sigma v eps f).2 := by
  have h1 : eps ≤ meanLink sigma eps f := by
    rw [meanLink, npClip]
    exact le_min (le_max_right _ _) (by linarith)
  have h2 : meanLink sigma eps f ≤ 1 - eps := min_le_right _ _
  simp only [alphaBeta]
  constructor
  · exact mul_pos hv (by linarith)
  · nlinarith

/-! ## Beta densities -/

theorem betaPDFReal_nonneg' {a b : ℝ} (ha : 0 < a) (hb : 0 < b) (q : ℝ) : 0 ≤ betaPDFReal a b q := by
  by_cases h : 0 < q ∧ q < 1
  · exact (betaPDFReal_pos h.1 h.2 ha hb).le
  · rw [betaPDFReal, if_neg h]

theorem lintegral_beta {a b : ℝ} (ha : 0 < a) (hb : 0 < b) :
    ∫⁻ q, ENNReal.ofReal (betaPDFReal a b q) = 1 := lintegral_betaPDF_eq_one ha hb

theorem integrable_beta {a b : ℝ} (ha : 0 < a) (hb : 0 < b) : Integrable (betaPDFReal a b) := by
  refine ⟨(measurable_betaPDFReal a b).aestronglyMeasurable, ?_⟩
  rw [hasFiniteIntegral_iff_ofReal (Filter.Eventually.of_forall (betaPDFReal_nonneg' ha hb)),
    lintegral_beta ha hb]
  exact ENNReal.one_lt_top

theorem integral_beta {a b : ℝ} (ha : 0 < a) (hb : 0 < b) : ∫ q, betaPDFReal a b q = 1 := by
  rw [integral_eq_lintegral_of_nonneg_ae (Filter.Eventually.of_forall (betaPDFReal_nonneg' ha hb))
    (measurable_betaPDFReal a b).aestronglyMeasurable, lintegral_beta ha hb]
  rfl

theorem setIntegral_beta {a b : ℝ} (ha : 0 < a) (hb : 0 < b) {s : Set ℝ} (hs : MeasurableSet s) :
    ∫ q in s, betaPDFReal a b q = (betaMeasure a b).real s := by
  rw [integral_eq_lintegral_of_nonneg_ae (Filter.Eventually.of_forall (betaPDFReal_nonneg' ha hb))
    (measurable_betaPDFReal a b).aestronglyMeasurable, betaMeasure, Measure.real,
    withDensity_apply _ hs]
  rfl

theorem beta_mass {a b : ℝ} (ha : 0 < a) (hb : 0 < b) {l u : ℝ} (hl : 0 < l) (hlu : l < u) (hu : u < 1) :
    0 < (betaMeasure a b).real (Set.Ioc l u) ∧ (betaMeasure a b).real (Set.Ioc l u) < 1 := by
  have hpos : ∀ {s : Set ℝ} {l u : ℝ}, s = Set.Ioc l u → 0 ≤ l → l < u → u < 1 →
      0 < (betaMeasure a b).real s := by
    rintro s l u rfl hl hlu hu
    rw [← setIntegral_beta ha hb measurableSet_Ioc,
      setIntegral_pos_iff_support_of_nonneg_ae
        (Filter.Eventually.of_forall (betaPDFReal_nonneg' ha hb)) (integrable_beta ha hb).integrableOn]
    have : Set.Ioc l u ⊆ Function.support (betaPDFReal a b) := fun q hq =>
      (betaPDFReal_pos (lt_of_le_of_lt hl hq.1) (lt_of_le_of_lt hq.2 hu) ha hb).ne'
    rw [Set.inter_eq_right.2 this]
    simpa using hlu
  refine ⟨hpos rfl hl.le hlu hu, ?_⟩
  haveI : IsProbabilityMeasure (betaMeasure a b) := isProbabilityMeasureBeta ha hb
  have h0 := hpos (s := Set.Ioc 0 l) rfl le_rfl hl (hlu.trans hu)
  have hdis : Disjoint (Set.Ioc 0 l) (Set.Ioc l u) := by
    rw [Set.disjoint_left]
    intro q h1 h2
    exact absurd h2.1 (not_lt.2 h1.2)
  have hun := measureReal_union (μ := betaMeasure a b) hdis measurableSet_Ioc
  have hle : (betaMeasure a b).real (Set.Ioc 0 l ∪ Set.Ioc l u) ≤ 1 := by
    simpa using measureReal_mono (μ := betaMeasure a b) (Set.subset_univ (Set.Ioc 0 l ∪ Set.Ioc l u))
  linarith

/-! ## The quadratic form -/

theorem meanAlign_const (p : Fin M → ℝ) (hp : ∑ w, p w = 1) (c : ℝ) : meanAlign (fun _ _ => c) p = c := by
  simp only [meanAlign, ← sum_mul, ← mul_sum, hp]
  ring

theorem bayes_sum (p : Fin M → ℝ) (h : 0 < ∑ w, p w) : ∑ w, bayes p w = 1 := by
  unfold bayes
  rw [← sum_div, div_self h.ne']

theorem meanAlign_mono {f g : Fin M → Fin M → ℝ} {p : Fin M → ℝ} (hp : ∀ w, 0 ≤ p w)
    (h : ∀ i j, f i j ≤ g i j) : meanAlign f p ≤ meanAlign g p :=
  sum_le_sum fun i _ => sum_le_sum fun j _ =>
    mul_le_mul_of_nonneg_left (h i j) (mul_nonneg (hp i) (hp j))

/-- Tangent inequality of the quadratic form at `u`, for weights of equal total. -/
theorem meanAlign_tangent {f : Fin M → Fin M → ℝ} (hf : CondPSD f) (u p : Fin M → ℝ)
    (h : ∑ w, p w = ∑ w, u w) :
    meanAlign f u + 2 * ∑ i, ∑ j, u i * (p j - u j) * f i j ≤ meanAlign f p := by
  have h0 : ∑ w, (p w - u w) = 0 := by rw [sum_sub_distrib, h, sub_self]
  have hq := hf.2 (fun w => p w - u w) h0
  have hs : ∑ i, ∑ j, u i * (p j - u j) * f i j = ∑ i, ∑ j, (p i - u i) * u j * f i j := by
    rw [sum_comm]
    refine sum_congr rfl fun i _ => sum_congr rfl fun j _ => ?_
    rw [hf.1 j i]
    ring
  have : meanAlign f p = meanAlign f u + ∑ i, ∑ j, u i * (p j - u j) * f i j +
      ∑ i, ∑ j, (p i - u i) * u j * f i j + ∑ i, ∑ j, (p i - u i) * (p j - u j) * f i j := by
    simp only [meanAlign, ← sum_add_distrib]
    refine sum_congr rfl fun i _ => sum_congr rfl fun j _ => ?_
    ring
  rw [this]
  linarith

end Lop
