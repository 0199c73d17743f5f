import Verif.Proofs.AbsAlign
import Verif.Proofs.NegType
import Verif.Props.Alignment
import Verif.Props.ExpAlign
import Mathlib.Analysis.SpecialFunctions.Integrals.Basic
import Mathlib.Topology.Order.IntermediateValue

/-! # C76: expected alignment of a rating query -/

namespace Lop.Props

open Lop Spec Finset MeasureTheory ProbabilityTheory
open scoped RealInnerProductSpace

noncomputable section

variable {M d s : Nat}

/-- Density of rating `q` of candidate `c` under every sample. -/
def dens (sigma v eps : ℝ) (allQ : Fin M → Nat → ℝ) (c : Nat) (q : ℝ) (w : Fin M) : ℝ :=
  betaPDFReal (alphaBeta sigma v eps (allQ w c)).1 (alphaBeta sigma v eps (allQ w c)).2 q

/-- Average probability, over the samples, that the rating of candidate `c` falls into the interval the
program integrates over. -/
def massIn (sigma v eps : ℝ) (allQ : Fin M → Nat → ℝ) (c : Nat) : ℝ :=
  (∑ w, (betaMeasure (alphaBeta sigma v eps (allQ w c)).1 (alphaBeta sigma v eps (allQ w c)).2).real
    (Set.Ioc 0.0001 0.9999)) / M

theorem dens_pos {v eps : ℝ} (hv : 0 < v) (he : 0 < eps) (he' : eps < 1 / 2) (sigma : ℝ)
    (allQ : Fin M → Nat → ℝ) (c : Nat) {q : ℝ} (h0 : 0 < q) (h1 : q < 1) (w : Fin M) :
    0 < dens sigma v eps allQ c q w :=
  betaPDFReal_pos h0 h1 (alphaBeta_pos hv he he' _ _).1 (alphaBeta_pos hv he he' _ _).2

/-- C76: the integrand at a rating is the predicted density of that rating times the alignment of two
independent draws from the posterior after it. -/
theorem C76_integrand (hM : 0 < M) {v eps : ℝ} (hv : 0 < v) (he : 0 < eps) (he' : eps < 1 / 2) (sigma : ℝ)
    (f : Fin M → Fin M → ℝ) (allQ : Fin M → Nat → ℝ) (c : Nat) {q : ℝ} (h0 : 0 < q) (h1 : q < 1) :
    absIntegrand sigma v eps f allQ c q =
      (∑ w, dens sigma v eps allQ c q w) / M * meanAlign f (bayes (dens sigma v eps allQ c q)) ∧
    0 < ∑ w, dens sigma v eps allQ c q w := by
  haveI : Nonempty (Fin M) := ⟨⟨0, hM⟩⟩
  refine ⟨?_, sum_pos (fun w _ => dens_pos hv he he' sigma allQ c h0 h1 w) univ_nonempty⟩
  exact fastSumQ_bayes hM f _ fun w => dens_pos hv he he' sigma allQ c h0 h1 w

/-- The hypotheses of C76_integrand are met by the default parameters of the rating model. -/
example : (0 : ℝ) < 80 ∧ (0 : ℝ) < 1e-10 ∧ (1e-10 : ℝ) < 1 / 2 := by norm_num

theorem measurable_dens (sigma v eps : ℝ) (allQ : Fin M → Nat → ℝ) (c : Nat) (w : Fin M) :
    Measurable fun q => dens sigma v eps allQ c q w := measurable_betaPDFReal _ _

theorem absIntegrand_eq (sigma v eps : ℝ) (f : Fin M → Fin M → ℝ) (allQ : Fin M → Nat → ℝ) (c : Nat) (q : ℝ) :
    absIntegrand sigma v eps f allQ c q = (∑ i, ∑ j, f i j * dens sigma v eps allQ c q i *
      dens sigma v eps allQ c q j / ((∑ w, dens sigma v eps allQ c q w) / M)) / (M * M) :=
  fastSumQ_eq ..

theorem measurable_absIntegrand (sigma v eps : ℝ) (f : Fin M → Fin M → ℝ) (allQ : Fin M → Nat → ℝ) (c : Nat) :
    Measurable (absIntegrand sigma v eps f allQ c) := by
  have h := measurable_dens sigma v eps allQ c
  rw [funext (absIntegrand_eq sigma v eps f allQ c)]
  refine Measurable.div_const (Finset.measurable_sum _ fun i _ => Finset.measurable_sum _ fun j _ => ?_) _
  exact (((measurable_const.mul (h i)).mul (h j))).div
    ((Finset.measurable_sum _ fun w _ => h w).div_const _)

/-- Pointwise bounds of the integrand. -/
theorem absIntegrand_bounds (hM : 0 < M) {v eps : ℝ} (hv : 0 < v) (he : 0 < eps) (he' : eps < 1 / 2)
    (sigma : ℝ) (f : Fin M → Fin M → ℝ) (allQ : Fin M → Nat → ℝ) (c : Nat) {lo hi : ℝ}
    (hf : ∀ i j, lo ≤ f i j ∧ f i j ≤ hi) {q : ℝ} (h0 : 0 < q) (h1 : q < 1) :
    lo * ((∑ w, dens sigma v eps allQ c q w) / M) ≤ absIntegrand sigma v eps f allQ c q ∧
      absIntegrand sigma v eps f allQ c q ≤ hi * ((∑ w, dens sigma v eps allQ c q w) / M) := by
  obtain ⟨e, hS⟩ := C76_integrand hM hv he he' sigma f allQ c h0 h1
  have hM' : (0 : ℝ) < M := by exact_mod_cast hM
  have hb : ∀ w, 0 ≤ bayes (dens sigma v eps allQ c q) w := fun w =>
    div_nonneg (dens_pos hv he he' sigma allQ c h0 h1 w).le hS.le
  have hbs := bayes_sum _ hS
  have hp : 0 ≤ (∑ w, dens sigma v eps allQ c q w) / M := (div_pos hS hM').le
  rw [e]
  constructor
  · have := meanAlign_mono (f := fun _ _ => lo) hb fun i j => (hf i j).1
    rw [meanAlign_const _ hbs] at this
    rw [mul_comm lo]
    exact mul_le_mul_of_nonneg_left this hp
  · have := meanAlign_mono (g := fun _ _ => hi) hb fun i j => (hf i j).2
    rw [meanAlign_const _ hbs] at this
    rw [mul_comm hi]
    exact mul_le_mul_of_nonneg_left this hp

theorem integrable_meanDens {v eps : ℝ} (hv : 0 < v) (he : 0 < eps) (he' : eps < 1 / 2)
    (sigma : ℝ) (allQ : Fin M → Nat → ℝ) (c : Nat) :
    Integrable fun q => (∑ w, dens sigma v eps allQ c q w) / M :=
  (integrable_finset_sum _ fun w _ =>
    integrable_beta (alphaBeta_pos hv he he' _ _).1 (alphaBeta_pos hv he he' _ _).2).div_const _

theorem dens_outside (sigma v eps : ℝ) (allQ : Fin M → Nat → ℝ) (c : Nat) {q : ℝ} (h : ¬ (0 < q ∧ q < 1))
    (w : Fin M) : dens sigma v eps allQ c q w = 0 := by
  rw [dens, betaPDFReal, if_neg h]

theorem absIntegrand_outside (sigma v eps : ℝ) (f : Fin M → Fin M → ℝ) (allQ : Fin M → Nat → ℝ) (c : Nat)
    {q : ℝ} (h : ¬ (0 < q ∧ q < 1)) : absIntegrand sigma v eps f allQ c q = 0 := by
  rw [absIntegrand_eq]
  simp [dens_outside sigma v eps allQ c h]

theorem integrable_absIntegrand (hM : 0 < M) {v eps : ℝ} (hv : 0 < v) (he : 0 < eps) (he' : eps < 1 / 2)
    (sigma : ℝ) (f : Fin M → Fin M → ℝ) (allQ : Fin M → Nat → ℝ) (c : Nat) :
    Integrable (absIntegrand sigma v eps f allQ c) := by
  set B : ℝ := ∑ i, ∑ j, |f i j| with hB
  have hf : ∀ i j, -B ≤ f i j ∧ f i j ≤ B := by
    intro i j
    rw [← abs_le]
    calc |f i j| ≤ ∑ j, |f i j| := single_le_sum (f := fun j => |f i j|) (fun j _ => abs_nonneg _) (mem_univ j)
      _ ≤ B := single_le_sum (f := fun i => ∑ j, |f i j|) (fun i _ => sum_nonneg fun j _ => abs_nonneg _)
        (mem_univ i)
  refine Integrable.mono ((integrable_meanDens hv he he' sigma allQ c).const_mul B)
    (measurable_absIntegrand ..).aestronglyMeasurable (Filter.Eventually.of_forall fun q => ?_)
  by_cases hq : 0 < q ∧ q < 1
  · obtain ⟨h1, h2⟩ := absIntegrand_bounds hM hv he he' sigma f allQ c hf hq.1 hq.2
    rw [Real.norm_eq_abs, Real.norm_eq_abs]
    refine le_trans ?_ (le_abs_self _)
    rw [abs_le]
    exact ⟨by linarith, h2⟩
  · rw [absIntegrand_outside sigma v eps f allQ c hq, norm_zero]
    exact norm_nonneg _

theorem setIntegral_meanDens {v eps : ℝ} (hv : 0 < v) (he : 0 < eps) (he' : eps < 1 / 2)
    (sigma : ℝ) (allQ : Fin M → Nat → ℝ) (c : Nat) :
    ∫ q in Set.Ioc (0.0001 : ℝ) 0.9999, (∑ w, dens sigma v eps allQ c q w) / M =
      massIn sigma v eps allQ c := by
  rw [integral_div, massIn, integral_finset_sum]
  · congr 1
    refine sum_congr rfl fun w _ => ?_
    exact setIntegral_beta (alphaBeta_pos hv he he' _ _).1 (alphaBeta_pos hv he he' _ _).2 measurableSet_Ioc
  · intro w _
    exact (integrable_beta (alphaBeta_pos hv he he' _ _).1 (alphaBeta_pos hv he he' _ _).2).integrableOn

theorem absAlign_eq_set (sigma v eps : ℝ) (f : Fin M → Fin M → ℝ) (allQ : Fin M → Nat → ℝ) (c : Nat) :
    absAlign sigma v eps f allQ c =
      ∫ q in Set.Ioc (0.0001 : ℝ) 0.9999, absIntegrand sigma v eps f allQ c q :=
  intervalIntegral.integral_of_le (by norm_num)

/-- C76 (bounds), partial: the value lies between the smallest and the largest alignment, both multiplied
with the probability that the rating falls into `[0.0001, 0.9999]`, which is strictly between 0 and 1. (An
expected alignment would not contain that factor.) -/
theorem C76_bounds_partial (hM : 0 < M) {v eps : ℝ} (hv : 0 < v) (he : 0 < eps) (he' : eps < 1 / 2)
    (sigma : ℝ) (f : Fin M → Fin M → ℝ) (allQ : Fin M → Nat → ℝ) (c : Nat) {lo hi : ℝ}
    (hf : ∀ i j, lo ≤ f i j ∧ f i j ≤ hi) :
    0 < massIn sigma v eps allQ c ∧ massIn sigma v eps allQ c < 1 ∧
    lo * massIn sigma v eps allQ c ≤ absAlign sigma v eps f allQ c ∧
      absAlign sigma v eps f allQ c ≤ hi * massIn sigma v eps allQ c := by
  haveI : Nonempty (Fin M) := ⟨⟨0, hM⟩⟩
  have hM' : (0 : ℝ) < M := by exact_mod_cast hM
  have hm : ∀ w : Fin M, _ := fun w => beta_mass (alphaBeta_pos hv he he' sigma (allQ w c)).1
    (alphaBeta_pos hv he he' sigma (allQ w c)).2 (l := 0.0001) (u := 0.9999) (by norm_num) (by norm_num)
    (by norm_num)
  have hi' := integrable_meanDens hv he he' sigma allQ c
  have hg := integrable_absIntegrand hM hv he he' sigma f allQ c
  have hin : ∀ q ∈ Set.Ioc (0.0001 : ℝ) 0.9999, 0 < q ∧ q < 1 := by
    intro q hq
    have h1 := hq.1
    have h2 := hq.2
    constructor <;> norm_num at h1 h2 ⊢ <;> linarith
  refine ⟨div_pos (sum_pos (fun w _ => (hm w).1) univ_nonempty) hM', ?_, ?_, ?_⟩
  · rw [massIn, div_lt_one hM']
    calc _ < ∑ _w : Fin M, (1 : ℝ) := sum_lt_sum_of_nonempty univ_nonempty fun w _ => (hm w).2
      _ = M := by simp
  · rw [absAlign_eq_set, ← setIntegral_meanDens hv he he', ← integral_const_mul]
    exact setIntegral_mono_on (hi'.const_mul lo).integrableOn hg.integrableOn measurableSet_Ioc
      fun q hq => (absIntegrand_bounds hM hv he he' sigma f allQ c hf (hin q hq).1 (hin q hq).2).1
  · rw [absAlign_eq_set, ← setIntegral_meanDens hv he he', ← integral_const_mul]
    exact setIntegral_mono_on hg.integrableOn (hi'.const_mul hi).integrableOn measurableSet_Ioc
      fun q hq => (absIntegrand_bounds hM hv he he' sigma f allQ c hf (hin q hq).1 (hin q hq).2).2

/-- C76 (uninformative candidates): when all samples give the candidate the same value, its rating says
nothing about them; the value is the mean of the alignment matrix times the probability of the interval. -/
theorem C76_uninformative (hM : 0 < M) {v eps : ℝ} (hv : 0 < v) (he : 0 < eps) (he' : eps < 1 / 2)
    (sigma : ℝ) (f : Fin M → Fin M → ℝ) (allQ : Fin M → Nat → ℝ) (c : Nat)
    (h : ∀ w w', allQ w c = allQ w' c) :
    absAlign sigma v eps f allQ c =
      massIn sigma v eps allQ c * ((∑ i, ∑ j, f i j) / (M * M)) := by
  have hM' : (0 : ℝ) < M := by exact_mod_cast hM
  have hin : ∀ q ∈ Set.Ioc (0.0001 : ℝ) 0.9999, absIntegrand sigma v eps f allQ c q =
      (∑ w, dens sigma v eps allQ c q w) / M * ((∑ i, ∑ j, f i j) / (M * M)) := by
    intro q hq
    have h1 := hq.1
    have h2 := hq.2
    have q0 : 0 < q := by norm_num at h1 ⊢; linarith
    have q1 : q < 1 := by norm_num at h2 ⊢; linarith
    obtain ⟨e, hS⟩ := C76_integrand hM hv he he' sigma f allQ c q0 q1
    rw [e]
    congr 1
    have hd : ∀ w w', dens sigma v eps allQ c q w = dens sigma v eps allQ c q w' := by
      intro w w'
      rw [dens, dens, h w w']
    have hb : ∀ w, bayes (dens sigma v eps allQ c q) w = 1 / M := by
      intro w
      have : ∑ k, dens sigma v eps allQ c q k = M * dens sigma v eps allQ c q w := by
        rw [sum_congr rfl fun k _ => hd k w]
        simp
      have hpos := (dens_pos hv he he' sigma allQ c q0 q1 w).ne'
      rw [bayes, this]
      field_simp
    simp only [meanAlign, hb]
    rw [sum_div]
    refine sum_congr rfl fun i _ => ?_
    rw [sum_div]
    refine sum_congr rfl fun j _ => ?_
    field_simp
  rw [absAlign_eq_set, setIntegral_congr_fun measurableSet_Ioc hin, integral_mul_const,
    setIntegral_meanDens hv he he']

/-- The integral over all ratings is at least the alignment before the rating. -/
theorem full_information (hM : 0 < M) {v eps : ℝ} (hv : 0 < v) (he : 0 < eps) (he' : eps < 1 / 2)
    (sigma : ℝ) {f : Fin M → Fin M → ℝ} (hf : CondPSD f) (allQ : Fin M → Nat → ℝ) (c : Nat) :
    meanAlign f (fun _ => 1 / M) ≤ ∫ q, absIntegrand sigma v eps f allQ c q := by
  have hM' : (0 : ℝ) < M := by exact_mod_cast hM
  set u : Fin M → ℝ := fun _ => 1 / M with hu
  have hus : ∑ w, u w = 1 := by simp [hu, hM'.ne']
  have hd : ∀ w, Integrable fun q => dens sigma v eps allQ c q w := fun w =>
    integrable_beta (alphaBeta_pos hv he he' _ _).1 (alphaBeta_pos hv he he' _ _).2
  have hd1 : ∀ w, ∫ q, dens sigma v eps allQ c q w = 1 := fun w =>
    integral_beta (alphaBeta_pos hv he he' _ _).1 (alphaBeta_pos hv he he' _ _).2
  have hm := integrable_meanDens hv he he' sigma allQ c
  have hm1 : ∫ q, (∑ w, dens sigma v eps allQ c q w) / M = 1 := by
    rw [integral_div, integral_finset_sum _ fun w _ => hd w]
    simp [hd1, hM'.ne']
  have hsub : ∀ j, Integrable fun q => dens sigma v eps allQ c q j / M -
      (∑ w, dens sigma v eps allQ c q w) / M * u j := fun j =>
    ((hd j).div_const _).sub (hm.mul_const _)
  have hsub0 : ∀ j, ∫ q, (dens sigma v eps allQ c q j / M -
      (∑ w, dens sigma v eps allQ c q w) / M * u j) = 0 := by
    intro j
    rw [integral_sub ((hd j).div_const _) (hm.mul_const _), integral_div, integral_mul_const, hd1, hm1]
    simp [hu]
  have hlow : Integrable fun q => (∑ w, dens sigma v eps allQ c q w) / M * meanAlign f u +
      2 * ∑ i, ∑ j, u i * (dens sigma v eps allQ c q j / M -
        (∑ w, dens sigma v eps allQ c q w) / M * u j) * f i j :=
    (hm.mul_const _).add ((integrable_finset_sum _ fun i _ => integrable_finset_sum _ fun j _ =>
      ((hsub j).const_mul _).mul_const _).const_mul _)
  have hval : ∫ q, ((∑ w, dens sigma v eps allQ c q w) / M * meanAlign f u +
      2 * ∑ i, ∑ j, u i * (dens sigma v eps allQ c q j / M -
        (∑ w, dens sigma v eps allQ c q w) / M * u j) * f i j) = meanAlign f u := by
    rw [integral_add (hm.mul_const _) ((integrable_finset_sum _ fun i _ => integrable_finset_sum _ fun j _ =>
      ((hsub j).const_mul _).mul_const _).const_mul _), integral_mul_const, hm1, one_mul, integral_const_mul,
      integral_finset_sum _ fun i _ => integrable_finset_sum _ fun j _ => ((hsub j).const_mul _).mul_const _]
    have : ∀ i, ∫ q, ∑ j, u i * (dens sigma v eps allQ c q j / M -
        (∑ w, dens sigma v eps allQ c q w) / M * u j) * f i j = 0 := by
      intro i
      rw [integral_finset_sum _ fun j _ => ((hsub j).const_mul _).mul_const _]
      refine sum_eq_zero fun j _ => ?_
      rw [integral_mul_const, integral_const_mul, hsub0]
      simp
    rw [sum_eq_zero fun i _ => this i]
    simp
  rw [← hval]
  refine integral_mono hlow (integrable_absIntegrand hM hv he he' sigma f allQ c) fun q => ?_
  by_cases hq : 0 < q ∧ q < 1
  · obtain ⟨e, hS⟩ := C76_integrand hM hv he he' sigma f allQ c hq.1 hq.2
    dsimp only
    rw [e]
    have ht := meanAlign_tangent hf u (bayes (dens sigma v eps allQ c q)) (by rw [bayes_sum _ hS, hus])
    have hp : 0 ≤ (∑ w, dens sigma v eps allQ c q w) / M := (div_pos hS hM').le
    refine le_trans (le_of_eq ?_) (mul_le_mul_of_nonneg_left ht hp)
    rw [mul_add, mul_left_comm]
    congr 2
    rw [mul_sum]
    refine sum_congr rfl fun i _ => ?_
    rw [mul_sum]
    refine sum_congr rfl fun j _ => ?_
    rw [bayes]
    field_simp
  · dsimp only
    rw [absIntegrand_outside sigma v eps f allQ c hq]
    simp [dens_outside sigma v eps allQ c hq]

/-- C76 (information): for a conditionally positive semidefinite alignment that is never positive (`rho`,
`epic`), no rating query has a value below the present mean alignment. -/
theorem C76_information (hM : 0 < M) {v eps : ℝ} (hv : 0 < v) (he : 0 < eps) (he' : eps < 1 / 2)
    (sigma : ℝ) {f : Fin M → Fin M → ℝ} (hf : CondPSD f) (hneg : ∀ i j, f i j ≤ 0)
    (allQ : Fin M → Nat → ℝ) (c : Nat) :
    (∑ i, ∑ j, f i j) / (M * M) ≤ absAlign sigma v eps f allQ c := by
  have h := full_information hM hv he he' sigma hf allQ c
  have h1 : meanAlign f (fun _ => 1 / M) = (∑ i, ∑ j, f i j) / (M * M) := by
    rw [meanAlign, sum_div]
    refine sum_congr rfl fun i _ => ?_
    rw [sum_div]
    refine sum_congr rfl fun j _ => ?_
    ring
  rw [← h1, absAlign_eq_set]
  refine h.trans ?_
  have hM' : (0 : ℝ) < M := by exact_mod_cast hM
  have hg := integrable_absIntegrand hM hv he he' sigma f allQ c
  have hle : ∀ q, absIntegrand sigma v eps f allQ c q ≤ 0 := by
    intro q
    by_cases hq : 0 < q ∧ q < 1
    · obtain ⟨e, hS⟩ := C76_integrand hM hv he he' sigma f allQ c hq.1 hq.2
      rw [e]
      refine mul_nonpos_of_nonneg_of_nonpos (div_pos hS hM').le ?_
      refine sum_nonpos fun i _ => sum_nonpos fun j _ => ?_
      have hb : ∀ w, 0 ≤ bayes (dens sigma v eps allQ c q) w := fun w =>
        div_nonneg (dens_pos hv he he' sigma allQ c hq.1 hq.2 w).le hS.le
      exact mul_nonpos_of_nonneg_of_nonpos (mul_nonneg (hb i) (hb j)) (hneg i j)
    · rw [absIntegrand_outside sigma v eps f allQ c hq]
  have := setIntegral_mono_set (s := Set.Ioc (0.0001 : ℝ) 0.9999) (t := Set.univ) (μ := volume)
    (f := fun q => -absIntegrand sigma v eps f allQ c q) hg.neg.integrableOn
    (Filter.Eventually.of_forall fun q => by simpa using hle q)
    (Filter.Eventually.of_forall fun q hq => Set.mem_univ q)
  rw [setIntegral_univ, integral_neg, integral_neg] at this
  linarith

/-- C76 (alignment matrices): `rho`, `one`, and without constant rows `epic` and `spearman`, are
conditionally positive semidefinite, so that C76_information (and C57_information) applies to them. -/
theorem C76_condPSD (hd : 2 ≤ d) (σ : ℝ) (kind : AlignKind) (hk : kind ≠ .loglikelihood)
    (X : Fin M → Fin d → ℝ) (Qs : List (Fin s → Fin d))
    (hX : kind = .epic ∨ kind = .spearman → ∀ i, NonConstant (X i)) :
    ∃ f : Fin M → Fin M → ℝ, (∀ i k, alignment σ (some kind) X Qs i k = .ok (some (some (f i k)))) ∧
      CondPSD f ∧ (kind = .rho ∨ kind = .epic → ∀ i k, f i k ≤ 0) := by
  have hd2 : ¬ d < 2 := by omega
  cases kind with
  | loglikelihood => exact absurd rfl hk
  | rho =>
    refine ⟨fun i k => -‖sRow (X i) - sRow (X k)‖, ?_, condPSD_neg_dist _, fun _ i k => ?_⟩
    · intro i k
      simp [alignment, hd2, alignRho_eq]
    · exact neg_nonpos.2 (norm_nonneg _)
  | epic =>
    have h := hX (Or.inl rfl)
    refine ⟨fun i k => -(‖uRow (X i) - uRow (X k)‖ / 2), ?_, ?_, fun _ i k => ?_⟩
    · intro i k
      simp only [alignment, hd2, if_false, epicOf_eq hd (h i) (h k)]
    · obtain ⟨h1, h2⟩ := condPSD_neg_dist fun i => uRow (X i)
      refine ⟨fun i j => ?_, fun c hc => ?_⟩
      · have := h1 i j
        dsimp only at this ⊢
        linarith
      · have := h2 c hc
        have e : ∑ i, ∑ j, c i * c j * -(‖uRow (X i) - uRow (X j)‖ / 2) =
            (∑ i, ∑ j, c i * c j * -‖uRow (X i) - uRow (X j)‖) / 2 := by
          rw [sum_div]
          refine sum_congr rfl fun i _ => ?_
          rw [sum_div]
          refine sum_congr rfl fun j _ => ?_
          ring
        rw [e]
        positivity
    · exact neg_nonpos.2 (by positivity)
  | spearman =>
    have h := hX (Or.inr rfl)
    have hR : ∀ i, NonConstant (rankRow (X i)) := fun i => (nonConstant_rankRow _).2 (h i)
    refine ⟨fun i k => ⟪uRow (rankRow (X i)), uRow (rankRow (X k))⟫, ?_, ⟨?_, ?_⟩, ?_⟩
    · intro i k
      simp only [alignment, hd2, if_false, spearmanOf, npCorr_eq hd (hR i) (hR k)]
    · intro i j
      exact real_inner_comm _ _
    · intro c _
      have : ∑ i, ∑ j, c i * c j * ⟪uRow (rankRow (X i)), uRow (rankRow (X j))⟫ =
          ‖∑ i, c i • uRow (rankRow (X i))‖ ^ 2 := by
        rw [← real_inner_self_eq_norm_sq, sum_inner]
        refine sum_congr rfl fun i _ => ?_
        rw [inner_sum]
        refine sum_congr rfl fun j _ => ?_
        rw [real_inner_smul_left, real_inner_smul_right]
        ring
      rw [this]
      positivity
    · rintro (h | h) <;> cases h
  | one =>
    refine ⟨fun _ _ => 1, ?_, ⟨fun _ _ => rfl, ?_⟩, ?_⟩
    · intro i k
      simp [alignment, hd2]
    · intro c hc
      simp only [mul_one, ← mul_sum, hc, mul_zero, sum_const_zero]
      exact le_refl _
    · rintro (h | h) <;> cases h

/-- C57 (information): for a conditionally positive semidefinite alignment the expected alignment after the
answer to a query is at least the present mean alignment, whatever the answer probabilities. -/
theorem C57_information (hM : 0 < M) {n : Nat} {f : Fin M → Fin M → ℝ} (hf : CondPSD f)
    (π : Fin M → Fin n → ℝ) (hp : ∀ w q, 0 < π w q) (h1 : ∀ w, ∑ q, π w q = 1) :
    (∑ i, ∑ j, f i j) / (M * M) ≤ expectedAlign f π := by
  haveI : Nonempty (Fin M) := ⟨⟨0, hM⟩⟩
  have hM' : (0 : ℝ) < M := by exact_mod_cast hM
  set u : Fin M → ℝ := fun _ => 1 / M with hu
  have hus : ∑ w, u w = 1 := by simp [hu, hM'.ne']
  have hS : ∀ q, 0 < ∑ w, π w q := fun q => sum_pos (fun w _ => hp w q) univ_nonempty
  have hmean : meanAlign f u = (∑ i, ∑ j, f i j) / (M * M) := by
    rw [meanAlign, sum_div]
    refine sum_congr rfl fun i _ => ?_
    rw [sum_div]
    refine sum_congr rfl fun j _ => ?_
    rw [hu]
    ring
  have hm1 : ∑ q, (∑ w, π w q) / M = 1 := by
    rw [← sum_div, sum_comm]
    simp [h1, hM'.ne']
  have hb : ∀ q w, postWeight π q w = bayes (fun k => π k q) w := fun _ _ => rfl
  have hE : expectedAlign f π = ∑ q, (∑ w, π w q) / M * meanAlign f (bayes fun k => π k q) := rfl
  have hlow : ∑ q, (∑ w, π w q) / M *
      (meanAlign f u + 2 * ∑ i, ∑ j, u i * (bayes (fun k => π k q) j - u j) * f i j) = meanAlign f u := by
    have hz : ∀ j, ∑ q, (∑ w, π w q) / M * (bayes (fun k => π k q) j - u j) = 0 := by
      intro j
      have : ∀ q, (∑ w, π w q) / M * (bayes (fun k => π k q) j - u j) =
          π j q / M - (∑ w, π w q) / M * u j := by
        intro q
        have := (hS q).ne'
        rw [bayes]
        field_simp
      simp only [this, sum_sub_distrib]
      rw [← sum_div, h1, ← sum_mul, hm1]
      simp [hu]
    simp only [mul_add, sum_add_distrib]
    rw [← sum_mul, hm1, one_mul]
    have : ∑ q, (∑ w, π w q) / M * (2 * ∑ i, ∑ j, u i * (bayes (fun k => π k q) j - u j) * f i j) =
        2 * ∑ i, ∑ j, u i * (∑ q, (∑ w, π w q) / M * (bayes (fun k => π k q) j - u j)) * f i j := by
      simp only [mul_sum, sum_mul]
      rw [sum_comm]
      refine sum_congr rfl fun i _ => ?_
      rw [sum_comm]
      refine sum_congr rfl fun j _ => sum_congr rfl fun q _ => ?_
      ring
    rw [this]
    simp [hz]
  rw [← hmean, ← hlow, hE]
  refine sum_le_sum fun q _ => mul_le_mul_of_nonneg_left ?_ (div_pos (hS q) hM').le
  exact meanAlign_tangent hf u _ (by rw [bayes_sum _ (hS q), hus])

/-- Beside C57_information: two samples at distance one and a query that separates them. -/
example : CondPSD (M := 2) ![![0, -1], ![-1, 0]] ∧
    (∀ (w : Fin 2) (q : Fin 2), (0 : ℝ) < (![![3 / 4, 1 / 4], ![1 / 4, 3 / 4]] : Fin 2 → Fin 2 → ℝ) w q) ∧
    ∀ w : Fin 2, ∑ q, (![![3 / 4, 1 / 4], ![1 / 4, 3 / 4]] : Fin 2 → Fin 2 → ℝ) w q = 1 := by
  refine ⟨⟨?_, ?_⟩, ?_, ?_⟩
  · intro i j
    fin_cases i <;> fin_cases j <;> norm_num
  · intro c hc
    rw [Fin.sum_univ_two] at hc
    have : c 1 = -c 0 := by linarith
    simp [Fin.sum_univ_two, this]
    nlinarith [sq_nonneg (c 0)]
  · intro w q
    fin_cases w <;> fin_cases q <;> norm_num
  · intro w
    fin_cases w <;> norm_num [Fin.sum_univ_two]

/-- C57 (information, program): for a conditionally positive semidefinite alignment the value of every
greedily extended query is at least the present mean alignment, and so is the value of every pair inside the
clipping range. -/
theorem C57_information_values {N : Nat} (hM : 0 < M) {f : Fin M → Fin M → ℝ} (hf : CondPSD f)
    (sigma : ℝ) (w : Fin M → Fin N → ℝ) :
    (∀ (prev : List (Fin N)) (c : Fin N),
      (∑ i, ∑ j, f i j) / (M * M) ≤ greedyAlign f (fun k => prefAllPairs sigma (w k)) prev c) ∧
    ∀ a b : Fin N, (∀ k, |(w k a - w k b) / (Real.sqrt 2 * sigma)| ≤ 30) →
      (∑ i, ∑ j, f i j) / (M * M) ≤ pairAlign f (fun k => prefAllPairs sigma (w k)) a b := by
  have hP : ∀ k a b, 0 < prefAllPairs sigma (w k) a b := fun k a b => prefAllPairs_pos sigma (w k) a b
  constructor
  · intro prev c
    rw [(C57_greedy_value hM f _ hP prev c).1]
    have hq : ∀ k (q : Fin (prev ++ [c]).length),
        0 < ∏ j ∈ univ.erase q, prefAllPairs sigma (w k) (prev ++ [c])[q] (prev ++ [c])[j] :=
      fun k q => prod_pos fun j _ => hP _ _ _
    have hne : (univ : Finset (Fin (prev ++ [c]).length)).Nonempty := ⟨⟨0, by simp⟩, mem_univ _⟩
    have hS : ∀ k, 0 < ∑ q : Fin (prev ++ [c]).length,
        ∏ j ∈ univ.erase q, prefAllPairs sigma (w k) (prev ++ [c])[q] (prev ++ [c])[j] :=
      fun k => sum_pos (fun q _ => hq k q) hne
    refine C57_information hM hf _ (fun k q => div_pos (hq k _) (hS k)) fun k => ?_
    have e : (prev ++ [c]).length = prev.length + 1 := by simp
    refine ((Fin.castOrderIso e.symm).toEquiv.sum_comp fun q =>
      chooseProb (prefAllPairs sigma (w k)) (prev ++ [c]) q).trans ?_
    unfold chooseProb
    rw [← sum_div, div_self (hS k).ne']
  · intro a b hr
    rw [C57_pair_value hM f _ hP]
    refine C57_information hM hf _ ?_ ?_
    · intro k q
      fin_cases q
      · exact hP k a b
      · exact hP k b a
    · intro k
      rw [Fin.sum_univ_two]
      exact C36_complement_partial sigma (w k) a b (hr k)

/-- C76 (selection): with data, the selected candidate is a considered one whose exact value is within twice
the integration error of the largest, and `sel_metric` is within the error of its value; without data a
considered candidate is drawn and the metric is 0; an empty list raises `ValueError`. -/
theorem C76_select (rnd : Nat) (quad : (ℝ → ℝ) → ℝ) (sigma v eps tol : ℝ) (f : Fin M → Fin M → ℝ)
    (allQ : Fin M → Nat → ℝ) (indicies : List Nat)
    (hq : ∀ c ∈ indicies, |quad (absIntegrand sigma v eps f allQ c) - absAlign sigma v eps f allQ c| ≤ tol) :
    (indicies = [] → ∀ b, absAlignGreedy b rnd quad sigma v eps f allQ indicies = .error .valueError) ∧
    (indicies ≠ [] → (∃ i ∈ indicies, absAlignGreedy false rnd quad sigma v eps f allQ indicies = .ok (i, 0)) ∧
      ∃ i g, i ∈ indicies ∧ absAlignGreedy true rnd quad sigma v eps f allQ indicies = .ok (i, g) ∧
        |g - absAlign sigma v eps f allQ i| ≤ tol ∧
        ∀ c ∈ indicies, absAlign sigma v eps f allQ c ≤ absAlign sigma v eps f allQ i + 2 * tol) := by
  constructor
  · rintro rfl b
    cases b <;> rfl
  · intro hne
    have hlen : 0 < indicies.length := List.length_pos_iff.2 hne
    constructor
    · have hlt : rnd % indicies.length < indicies.length := Nat.mod_lt _ hlen
      refine ⟨indicies[rnd % indicies.length], List.getElem_mem _, ?_⟩
      simp [absAlignGreedy, List.getElem?_eq_getElem hlt]
    · obtain ⟨b, hb⟩ := npArgmax_isOk (l := indicies.map fun c => quad (absIntegrand sigma v eps f allQ c))
        (by simpa using hne)
      obtain ⟨m, h1, h2, -⟩ := npArgmax_spec hb
      rw [List.getElem?_map, Option.map_eq_some_iff] at h1
      obtain ⟨i, hi, rfl⟩ := h1
      have him : i ∈ indicies := List.mem_of_getElem? hi
      refine ⟨i, quad (absIntegrand sigma v eps f allQ i), him, ?_, hq i him, ?_⟩
      · simp [absAlignGreedy, hb, hi, Bind.bind, Except.bind, pure, Except.pure]
      · intro c hc
        have h3 := h2 _ (List.mem_map.2 ⟨c, hc, rfl⟩)
        have h4 := abs_le.1 (hq i him)
        have h5 := abs_le.1 (hq c hc)
        linarith [h4.2, h5.1]

/-- Beside C76_select: the exact integral is a possible integrator. -/
example (f : Fin M → Fin M → ℝ) (allQ : Fin M → Nat → ℝ) (c : Nat) :
    |(fun g : ℝ → ℝ => ∫ q in (0.0001 : ℝ)..0.9999, g q) (absIntegrand 1 80 1e-10 f allQ c) -
      absAlign 1 80 1e-10 f allQ c| ≤ 0 := by
  simp [absAlign]

theorem exists_quarter : ∃ x : ℝ, -30 ≤ x ∧ x ≤ 0 ∧ Phi x = 1 / 4 := by
  have hlo : Phi (-30) < 1 / 4 := by
    have h1 := mills (-30)
    have h2 : phi (-30) ≤ 1 := by
      rw [phi, div_le_one (by positivity)]
      have h3 : Real.exp (-((-30 : ℝ) ^ 2) / 2) ≤ 1 := Real.exp_le_one_iff.2 (by norm_num)
      have h4 : (1 : ℝ) ≤ √(2 * Real.pi) := by
        rw [Real.one_le_sqrt]
        linarith [Real.pi_gt_three]
      linarith
    linarith
  have := intermediate_value_Icc (show (-30 : ℝ) ≤ 0 by norm_num) continuous_Phi.continuousOn
  obtain ⟨x, hx, h⟩ := this (show (1 / 4 : ℝ) ∈ Set.Icc (Phi (-30)) (Phi 0) from
    ⟨hlo.le, by rw [Phi_zero]; norm_num⟩)
  exact ⟨x, hx.1, hx.2, h⟩

theorem mass22 : (betaMeasure 2 2).real (Set.Ioc 0.0001 0.9999) = 1 - 2 * (3 * 0.0001 ^ 2 - 2 * 0.0001 ^ 3) := by
  rw [← setIntegral_beta (by norm_num) (by norm_num) measurableSet_Ioc,
    ← intervalIntegral.integral_of_le (by norm_num)]
  have hG : Real.Gamma 2 = 1 ∧ Real.Gamma 4 = 6 :=
    ⟨by norm_num [Nat.factorial], by norm_num [Nat.factorial]⟩
  have : ∀ q ∈ Set.uIcc (0.0001 : ℝ) 0.9999, betaPDFReal 2 2 q = 6 * q - 6 * q ^ 2 := by
    intro q hq
    rw [Set.uIcc_of_le (by norm_num)] at hq
    have h1 := hq.1
    have h2 := hq.2
    rw [betaPDFReal, if_pos ⟨by norm_num at h1 ⊢; linarith, by norm_num at h2 ⊢; linarith⟩, beta]
    norm_num [hG.1, hG.2]
    ring
  rw [intervalIntegral.integral_congr this, intervalIntegral.integral_sub, intervalIntegral.integral_const_mul,
    intervalIntegral.integral_const_mul, integral_id, integral_pow]
  · norm_num
  · exact (continuous_const.mul continuous_id).intervalIntegrable _ _
  · exact (continuous_const.mul (continuous_pow 2)).intervalIntegrable _ _

theorem mass13 : (betaMeasure 1 3).real (Set.Ioc 0.0001 0.9999) = 0.9999 ^ 3 - 0.0001 ^ 3 := by
  rw [← setIntegral_beta (by norm_num) (by norm_num) measurableSet_Ioc,
    ← intervalIntegral.integral_of_le (by norm_num)]
  have hG : Real.Gamma 3 = 2 ∧ Real.Gamma 4 = 6 :=
    ⟨by norm_num [Nat.factorial], by norm_num [Nat.factorial]⟩
  have : ∀ q ∈ Set.uIcc (0.0001 : ℝ) 0.9999, betaPDFReal 1 3 q = 3 - 6 * q + 3 * q ^ 2 := by
    intro q hq
    rw [Set.uIcc_of_le (by norm_num)] at hq
    have h1 := hq.1
    have h2 := hq.2
    rw [betaPDFReal, if_pos ⟨by norm_num at h1 ⊢; linarith, by norm_num at h2 ⊢; linarith⟩, beta]
    norm_num [hG.1, hG.2]
    ring
  rw [intervalIntegral.integral_congr this, intervalIntegral.integral_add, intervalIntegral.integral_sub,
    intervalIntegral.integral_const_mul,
    intervalIntegral.integral_const_mul, integral_id, integral_pow, intervalIntegral.integral_const]
  · norm_num
  · exact continuous_const.intervalIntegrable _ _
  · exact (continuous_const.mul continuous_id).intervalIntegrable _ _
  · exact (continuous_const.sub (continuous_const.mul continuous_id)).intervalIntegrable _ _
  · exact (continuous_const.mul (continuous_pow 2)).intervalIntegrable _ _

/-- C76 refuted (expected alignment): the ratings outside `[0.0001, 0.9999]` are dropped, which counts as
alignment 0, the best value of `rho` and `epic`. Of two candidates about which all samples agree (so that
neither rating changes anything and both expected alignments equal the present mean alignment) the one whose
rating is likelier to be extreme is selected over the one listed first, even with exact integration. -/
theorem C76_truncation_counterexample :
    ∃ (f : Fin 2 → Fin 2 → ℝ) (allQ : Fin 2 → Nat → ℝ),
      CondPSD f ∧ (∀ w w' c, allQ w c = allQ w' c) ∧
      absAlign 1 4 1e-10 f allQ 0 < absAlign 1 4 1e-10 f allQ 1 ∧
      ∃ g, absAlignGreedy true 0 (fun g => ∫ q in (0.0001 : ℝ)..0.9999, g q) 1 4 1e-10 f allQ [0, 1] =
        .ok (1, g) := by
  obtain ⟨x, hx1, hx2, hx⟩ := exists_quarter
  have hs : (0 : ℝ) < √2 := by positivity
  set allQ : Fin 2 → Nat → ℝ := fun _ c => if c = 0 then 0 else x * √2 with hQ
  have hab0 : alphaBeta 1 4 1e-10 0 = (2, 2) := by
    have : meanLink 1 1e-10 0 = 1 / 2 := by
      rw [meanLink, zero_mul, stdNormCdf_of_mem (by norm_num) (by norm_num), Phi_zero, npClip,
        max_eq_left (by norm_num), min_eq_left (by norm_num)]
    simp only [alphaBeta, this]
    norm_num
  have hab1 : alphaBeta 1 4 1e-10 (x * √2) = (1, 3) := by
    have e : x * √2 * isqrt2sig 1 = x := by
      rw [isqrt2sig]; field_simp
    have : meanLink 1 1e-10 (x * √2) = 1 / 4 := by
      rw [meanLink, e, stdNormCdf_of_mem hx1 (by linarith), hx, npClip,
        max_eq_left (by norm_num), min_eq_left (by norm_num)]
    simp only [alphaBeta, this]
    norm_num
  have m0 : massIn 1 4 1e-10 allQ 0 = 1 - 2 * (3 * 0.0001 ^ 2 - 2 * 0.0001 ^ 3) := by
    simp only [massIn, hQ, if_true, hab0, mass22, sum_const, card_univ, Fintype.card_fin]
    norm_num
  have m1 : massIn 1 4 1e-10 allQ 1 = 0.9999 ^ 3 - 0.0001 ^ 3 := by
    simp only [massIn, hQ, one_ne_zero, if_false, hab1, mass13, sum_const, card_univ, Fintype.card_fin]
    norm_num
  have hlt : absAlign 1 4 1e-10 ![![0, -1], ![-1, 0]] allQ 0 <
      absAlign 1 4 1e-10 ![![0, -1], ![-1, 0]] allQ 1 := by
    rw [C76_uninformative (by norm_num) (by norm_num) (by norm_num) (by norm_num) _ _ _ _ fun _ _ => rfl,
      C76_uninformative (by norm_num) (by norm_num) (by norm_num) (by norm_num) _ _ _ _ fun _ _ => rfl,
      m0, m1]
    norm_num [Fin.sum_univ_two]
  refine ⟨![![0, -1], ![-1, 0]], allQ, ⟨?_, ?_⟩, fun _ _ _ => rfl, hlt, ?_⟩
  · intro i j
    fin_cases i <;> fin_cases j <;> norm_num
  · intro c hc
    rw [Fin.sum_univ_two] at hc
    have : c 1 = -c 0 := by linarith
    simp [Fin.sum_univ_two, this]
    nlinarith [sq_nonneg (c 0)]
  · refine ⟨absAlign 1 4 1e-10 ![![0, -1], ![-1, 0]] allQ 1, ?_⟩
    have hlt' : (∫ q in (0.0001 : ℝ)..0.9999, absIntegrand 1 4 1e-10 ![![0, -1], ![-1, 0]] allQ 0 q) <
      ∫ q in (0.0001 : ℝ)..0.9999, absIntegrand 1 4 1e-10 ![![0, -1], ![-1, 0]] allQ 1 q := hlt
    simp only [absAlignGreedy, if_true, List.map_cons, List.map_nil, npArgmax, argmaxFrom, if_pos hlt',
      Bind.bind, Except.bind]
    rfl

/-- C76 (`loglikelihood`) refuted: this alignment is not conditionally positive semidefinite, so
C76_information and C57_information do not apply to it. -/
theorem C76_loglik_false :
    ∃ (X : Fin 3 → Fin 2 → ℝ) (Qs : List (Fin 2 → Fin 2)) (f : Fin 3 → Fin 3 → ℝ),
      (∀ i k, alignment 1 (some .loglikelihood) X Qs i k = .ok (some (some (f i k)))) ∧ ¬ CondPSD f := by
  set X : Fin 3 → Fin 2 → ℝ := ![![0, 0], ![2, 0], ![-1, 0]] with hX
  obtain ⟨G, h1, -, h2⟩ := C75_loglik (M := 3) (le_refl 2) (s := 2) (by norm_num) 1 X [![0, 1]]
  refine ⟨X, [![0, 1]], _, h1, ?_⟩
  have hs2 : (1 : ℝ) < √2 := by
    rw [Real.lt_sqrt (by norm_num)]; norm_num
  have hi : 0 < isqrt2sig 1 ∧ isqrt2sig 1 < 1 := by
    rw [isqrt2sig, one_mul]
    exact ⟨by positivity, by rw [div_lt_one (by positivity)]; exact hs2⟩
  choose best hb using fun (x : Fin 2 → ℝ) (Q : Fin 2 → Fin 2) =>
    (repBest_ok (s := 2) (by norm_num) x Q).imp fun _ h => h.2
  have hb0 : ∀ t : ℝ, 0 ≤ t → best ![t, 0] ![0, 1] = 0 := by
    intro t ht
    apply firstMax_unique (hb _ _)
    constructor
    · intro j
      fin_cases j <;> simp [ht]
    · intro j hj
      exact absurd hj (by simp)
  have hb1 : ∀ t : ℝ, t < 0 → best ![t, 0] ![0, 1] = 1 := by
    intro t ht
    apply firstMax_unique (hb _ _)
    constructor
    · intro j
      fin_cases j <;> simp [ht.le]
    · intro j hj
      have : j = 0 := by omega
      subst this
      simpa using ht
  have val : ∀ (i k : Fin 3) (t u : ℝ) (b : Fin 2), X i = ![t, 0] → X k = ![u, 0] → |t| ≤ 2 →
      best ![u, 0] ![0, 1] = b →
      G i k = Real.log (Phi ((if b = 0 then t else -t) / √2)) := by
    intro i k t u b hi' hk ht hbu
    rw [h2 i k _ (hb _)]
    have hab : |((![t, 0] : Fin 2 → ℝ) ((![0, 1] : Fin 2 → Fin 2) 0) -
        (![t, 0] : Fin 2 → ℝ) ((![0, 1] : Fin 2 → Fin 2) 1)) * isqrt2sig 1| ≤ 30 := by
      simp only [Matrix.cons_val_zero, Matrix.cons_val_one, sub_zero]
      rw [abs_mul, abs_of_pos hi.1]
      nlinarith [hi.1, hi.2, abs_nonneg t]
    have := C75_loglik_pair 1 ![t, 0] ![0, 1] b hab
    rw [hk, hi', List.map_singleton, List.sum_singleton, hbu, this]
    rcases Fin.exists_fin_two.1 ⟨b, rfl⟩ with rfl | rfl <;> simp
  rintro ⟨-, h⟩
  have e0 : (![2, -1, -1] : Fin 3 → ℝ) 0 = 2 := rfl
  have e1 : (![2, -1, -1] : Fin 3 → ℝ) 1 = -1 := rfl
  have e2 : (![2, -1, -1] : Fin 3 → ℝ) 2 = -1 := rfl
  have := h ![2, -1, -1] (by rw [Fin.sum_univ_three, e0, e1, e2]; norm_num)
  have a0 : |(0 : ℝ)| ≤ 2 := by norm_num
  have a1 : |(2 : ℝ)| ≤ 2 := by norm_num
  have a2 : |(-1 : ℝ)| ≤ 2 := by norm_num
  have g00 := val 0 0 0 0 0 rfl rfl a0 (hb0 0 le_rfl)
  have g01 := val 0 1 0 2 0 rfl rfl a0 (hb0 2 (by norm_num))
  have g02 := val 0 2 0 (-1) 1 rfl rfl a0 (hb1 (-1) (by norm_num))
  have g10 := val 1 0 2 0 0 rfl rfl a1 (hb0 0 le_rfl)
  have g11 := val 1 1 2 2 0 rfl rfl a1 (hb0 2 (by norm_num))
  have g12 := val 1 2 2 (-1) 1 rfl rfl a1 (hb1 (-1) (by norm_num))
  have g20 := val 2 0 (-1) 0 0 rfl rfl a2 (hb0 0 le_rfl)
  have g21 := val 2 1 (-1) 2 0 rfl rfl a2 (hb0 2 (by norm_num))
  have g22 := val 2 2 (-1) (-1) 1 rfl rfl a2 (hb1 (-1) (by norm_num))
  simp only [Fin.sum_univ_three, e0, e1, e2] at this
  have o : ¬ (1 : Fin 2) = 0 := by decide
  rw [if_pos rfl] at g00 g01 g10 g11 g20 g21
  rw [if_neg o] at g02 g12 g22
  rw [neg_zero] at g02
  rw [neg_neg] at g22
  have l1 : Real.log (Phi (-2 / √2)) < Real.log (Phi (-1 / √2)) := Real.log_lt_log (Phi_pos _)
    (Phi_strictMono (div_lt_div_of_pos_right (by norm_num) (by positivity)))
  have l2 : Real.log (Phi (1 / √2)) < Real.log (Phi (2 / √2)) := Real.log_lt_log (Phi_pos _)
    (Phi_strictMono (div_lt_div_of_pos_right (by norm_num) (by positivity)))
  linarith

end

end Lop.Props
