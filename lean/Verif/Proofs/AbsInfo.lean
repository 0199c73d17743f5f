import Verif.Model.AbsInfo
import Verif.Spec.AbsInfo
import Verif.Proofs.AbsAlign
import Verif.Proofs.OrdProbit

/-! # Helper lemmas for the rating learner based on information gain -/

namespace Lop

open Finset MeasureTheory ProbabilityTheory Spec

/-- A non-negative function that is positive on an interval of `s` has a positive integral over `s`. -/
theorem setIntegral_pos_of_Ioo {f : ℝ → ℝ} {s : Set ℝ} {l u : ℝ} (hs : MeasurableSet s) (hlu : l < u)
    (hsub : Set.Ioo l u ⊆ s) (hf : ∀ x ∈ s, 0 ≤ f x) (hpos : ∀ x ∈ Set.Ioo l u, 0 < f x) (hi : IntegrableOn f s) :
    0 < ∫ x in s, f x := by
  have hae : 0 ≤ᵐ[volume.restrict s] f := (ae_restrict_iff' hs).2 (Filter.Eventually.of_forall hf)
  rw [setIntegral_pos_iff_support_of_nonneg_ae hae hi]
  refine lt_of_lt_of_le ?_ (measure_mono (μ := volume) (s := Set.Ioo l u) ?_)
  · simpa using hlu
  · exact fun x hx => ⟨(hpos x hx).ne', hsub hx⟩

theorem ratingAbove_eq {a b : ℝ} (ha : 0 < a) (hb : 0 < b) (m : ℝ) :
    ratingAbove a b m = ∫ q in Set.Ioi m, betaPDFReal a b q :=
  (setIntegral_beta ha hb measurableSet_Ioi).symm

theorem ratingAbove_compl {a b : ℝ} (ha : 0 < a) (hb : 0 < b) (m : ℝ) :
    ∫ q in Set.Iic m, betaPDFReal a b q = 1 - ratingAbove a b m := by
  have h := integral_add_compl (measurableSet_Iic (a := m)) (integrable_beta ha hb)
  rw [Set.compl_Iic, integral_beta ha hb, ← ratingAbove_eq ha hb] at h
  linarith

theorem ratingAbove_pos {a b m : ℝ} (ha : 0 < a) (hb : 0 < b) (hm : 0 < m) (hm' : m < 1) :
    0 < ratingAbove a b m := by
  rw [ratingAbove_eq ha hb]
  refine setIntegral_pos_of_Ioo measurableSet_Ioi hm' (fun x hx => hx.1)
    (fun x _ => betaPDFReal_nonneg' ha hb x) (fun x hx => ?_) (integrable_beta ha hb).integrableOn
  exact betaPDFReal_pos (hm.trans hx.1) hx.2 ha hb

theorem ratingAbove_lt_one {a b m : ℝ} (ha : 0 < a) (hb : 0 < b) (hm : 0 < m) (hm' : m < 1) :
    ratingAbove a b m < 1 := by
  have h := ratingAbove_compl ha hb m
  have : 0 < ∫ q in Set.Iic m, betaPDFReal a b q :=
    setIntegral_pos_of_Ioo measurableSet_Iic hm (fun x hx => hx.2.le)
      (fun x _ => betaPDFReal_nonneg' ha hb x)
      (fun x hx => betaPDFReal_pos hx.1 (hx.2.trans hm') ha hb) (integrable_beta ha hb).integrableOn
  linarith

/-- Monotone likelihood ratio of the beta family. -/
theorem beta_mlr {a b a' b' x y : ℝ} (ha : 0 < a) (hb : 0 < b) (ha' : 0 < a') (hb' : 0 < b') (haa : a < a')
    (hbb : b' < b) (hx : 0 < x) (hxy : x < y) (hy : y < 1) :
    betaPDFReal a' b' x * betaPDFReal a b y < betaPDFReal a' b' y * betaPDFReal a b x := by
  have hx1 : x < 1 := hxy.trans hy
  have hy0 : 0 < y := hx.trans hxy
  have h1x : 0 < 1 - x := by linarith
  have h1y : 0 < 1 - y := by linarith
  rw [betaPDFReal, betaPDFReal, betaPDFReal, betaPDFReal, if_pos ⟨hx, hx1⟩, if_pos ⟨hy0, hy⟩, if_pos ⟨hy0, hy⟩,
    if_pos ⟨hx, hx1⟩]
  have e1 : ∀ t : ℝ, 0 < t → t ^ (a' - 1) = t ^ (a - 1) * t ^ (a' - a) := by
    intro t ht
    rw [← Real.rpow_add ht]; congr 1; ring
  have e2 : ∀ t : ℝ, 0 < t → t ^ (b - 1) = t ^ (b' - 1) * t ^ (b - b') := by
    intro t ht
    rw [← Real.rpow_add ht]; congr 1; ring
  rw [e1 x hx, e1 y hy0, e2 _ h1x, e2 _ h1y]
  have i1 : x ^ (a' - a) < y ^ (a' - a) := Real.rpow_lt_rpow hx.le hxy (by linarith)
  have i2 : (1 - y) ^ (b - b') < (1 - x) ^ (b - b') := Real.rpow_lt_rpow h1y.le (by linarith) (by linarith)
  have p1 := beta_pos ha hb
  have p2 := beta_pos ha' hb'
  have q1 := Real.rpow_pos_of_pos hx (a - 1)
  have q2 := Real.rpow_pos_of_pos hy0 (a - 1)
  have q3 := Real.rpow_pos_of_pos h1x (b' - 1)
  have q4 := Real.rpow_pos_of_pos h1y (b' - 1)
  have q5 := Real.rpow_pos_of_pos hx (a' - a)
  have q6 := Real.rpow_pos_of_pos h1y (b - b')
  have hmul : x ^ (a' - a) * (1 - y) ^ (b - b') < y ^ (a' - a) * (1 - x) ^ (b - b') :=
    mul_lt_mul i1 i2.le q6 (q5.le.trans i1.le)
  have hC : 0 < 1 / beta a b * (1 / beta a' b') * x ^ (a - 1) * y ^ (a - 1) * (1 - x) ^ (b' - 1) *
      (1 - y) ^ (b' - 1) := by positivity
  have := mul_lt_mul_of_pos_left hmul hC
  nlinarith [this]

/-- Larger mean ratings exceed a threshold more often. -/
theorem ratingAbove_strict {a b a' b' m : ℝ} (ha : 0 < a) (hb : 0 < b) (ha' : 0 < a') (hb' : 0 < b') (haa : a < a')
    (hbb : b' < b) (hm : 0 < m) (hm' : m < 1) : ratingAbove a b m < ratingAbove a' b' m := by
  set T := ratingAbove a b m with hT
  set T' := ratingAbove a' b' m with hT'
  have hin : ∀ x ∈ Set.Ioo 0 m, 0 < T' * betaPDFReal a b x - betaPDFReal a' b' x * T := by
    intro x hx
    have hpos : 0 < ∫ y in Set.Ioi m,
        (betaPDFReal a' b' y * betaPDFReal a b x - betaPDFReal a' b' x * betaPDFReal a b y) := by
      refine setIntegral_pos_of_Ioo measurableSet_Ioi hm' (fun y hy => hy.1) (fun y hy => ?_) (fun y hy => ?_) ?_
      · by_cases h1 : y < 1
        · exact (sub_pos.2 (beta_mlr ha hb ha' hb' haa hbb hx.1 (hx.2.trans hy) h1)).le
        · have : ∀ a b : ℝ, betaPDFReal a b y = 0 := fun a b => by rw [betaPDFReal, if_neg (fun h => h1 h.2)]
          rw [this, this]; simp
      · exact sub_pos.2 (beta_mlr ha hb ha' hb' haa hbb hx.1 (hx.2.trans hy.1) hy.2)
      · exact (((integrable_beta ha' hb').mul_const _).sub ((integrable_beta ha hb).const_mul _)).integrableOn
    rw [integral_sub ((integrable_beta ha' hb').mul_const _).integrableOn
      ((integrable_beta ha hb).const_mul _).integrableOn, integral_mul_const, integral_const_mul,
      ← ratingAbove_eq ha' hb', ← ratingAbove_eq ha hb] at hpos
    exact hpos
  have hout : 0 < ∫ x in Set.Iic m, (T' * betaPDFReal a b x - betaPDFReal a' b' x * T) := by
    have hsplit : ∫ x in Set.Iic m, (T' * betaPDFReal a b x - betaPDFReal a' b' x * T) =
        ∫ x in Set.Ioo 0 m, (T' * betaPDFReal a b x - betaPDFReal a' b' x * T) := by
      rw [integral_Iic_eq_integral_Iio]
      refine setIntegral_eq_of_subset_of_forall_diff_eq_zero measurableSet_Iio (fun x hx => hx.2) ?_
      intro x hx
      have h0 : ¬ 0 < x := fun h => hx.2 ⟨h, hx.1⟩
      have : ∀ a b : ℝ, betaPDFReal a b x = 0 := fun a b => by rw [betaPDFReal, if_neg (fun h => h0 h.1)]
      rw [this, this]; simp
    rw [hsplit]
    refine setIntegral_pos_of_Ioo measurableSet_Ioo hm (fun _ h => h) (fun x hx => (hin x hx).le) hin ?_
    exact (((integrable_beta ha hb).const_mul _).sub ((integrable_beta ha' hb').mul_const _)).integrableOn
  rw [integral_sub ((integrable_beta ha hb).const_mul _).integrableOn
    ((integrable_beta ha' hb').mul_const _).integrableOn, integral_mul_const, integral_const_mul,
    ratingAbove_compl ha hb, ratingAbove_compl ha' hb', ← hT, ← hT'] at hout
  nlinarith [hout]

/-! ## The integrals of the code -/

theorem setIntegral_unit_beta {a b : ℝ} (g : ℝ → ℝ) :
    ∫ q in (0 : ℝ)..1, betaPDFReal a b q * g q = ∫ q, betaPDFReal a b q * g q := by
  rw [intervalIntegral.integral_of_le zero_le_one]
  refine setIntegral_eq_integral_of_forall_compl_eq_zero fun q hq => ?_
  rw [betaPDFReal, if_neg (fun h => hq ⟨h.1, h.2.le⟩), zero_mul]

theorem absInfoUnnorm_integral {ab : ℝ × ℝ} (h1 : 0 < ab.1) (h2 : 0 < ab.2) (m : ℝ) :
    ∫ q in (0 : ℝ)..1, absInfoUnnorm ab m q = ratingAbove ab.1 ab.2 m := by
  have e : ∀ q, absInfoUnnorm ab m q = betaPDFReal ab.1 ab.2 q * (Set.Ioi m).indicator 1 q := by
    intro q
    by_cases h : m < q
    · rw [absInfoUnnorm, if_pos h, Set.indicator_of_mem (show q ∈ Set.Ioi m from h)]; simp
    · rw [absInfoUnnorm, if_neg h, Set.indicator_of_notMem (show q ∉ Set.Ioi m from h)]; simp
  simp_rw [e]
  rw [setIntegral_unit_beta, ratingAbove_eq h1 h2, ← integral_indicator measurableSet_Ioi]
  congr 1
  funext q
  by_cases h : q ∈ Set.Ioi m <;> simp [h]

theorem absInfoIntegrand_eq {ab : ℝ × ℝ} (h1 : 0 < ab.1) (h2 : 0 < ab.2) (m : ℝ) {z pb : ℝ} (hz : 0 < z) (q : ℝ) :
    absInfoIntegrand ab m z pb q = absInfoUnnorm ab m q * (Real.log (pb / z) / z) := by
  unfold absInfoIntegrand
  by_cases h : absInfoUnnorm ab m q / z = 0
  · have : absInfoUnnorm ab m q = 0 := by
      rcases div_eq_zero_iff.1 h with h | h
      · exact h
      · exact absurd h hz.ne'
    simp [this]
  · simp only [if_neg h]
    have hne : absInfoUnnorm ab m q ≠ 0 := fun h0 => h (by rw [h0, zero_div])
    have hp : absInfoUnnorm ab m q = betaPDFReal ab.1 ab.2 q := by
      unfold absInfoUnnorm at hne ⊢
      split_ifs at hne ⊢ with hq
      · rfl
      · exact absurd rfl hne
    rw [hp] at hne ⊢
    have : betaPDFReal ab.1 ab.2 q / z * pb / betaPDFReal ab.1 ab.2 q = pb / z := by field_simp
    rw [this]
    ring

/-- `quad_vec` replaced by the exact integral. -/
noncomputable def exactQuad (f : ℝ → ℝ) : ℝ := ∫ q in (0 : ℝ)..1, f q

theorem absInfoCell_eq {ab : ℝ × ℝ} (h1 : 0 < ab.1) (h2 : 0 < ab.2) {m pb : ℝ} (hm : 0 < m) (hm' : m < 1)
    (hpb : 0 < pb) :
    absInfoCell exactQuad ab m pb = Real.log pb - Real.log (ratingAbove ab.1 ab.2 m) := by
  have hT := ratingAbove_pos h1 h2 hm hm'
  have hz : exactQuad (absInfoUnnorm ab m) = ratingAbove ab.1 ab.2 m := absInfoUnnorm_integral h1 h2 m
  rw [absInfoCell, hz, exactQuad]
  simp_rw [absInfoIntegrand_eq h1 h2 m hT]
  rw [intervalIntegral.integral_mul_const, absInfoUnnorm_integral h1 h2, Real.log_div hpb.ne' hT.ne']
  field_simp

theorem meanLink_mem {sigma eps : ℝ} (he : 0 < eps) (he' : eps < 1 / 2) (f : ℝ) :
    0 < meanLink sigma eps f ∧ meanLink sigma eps f < 1 := by
  have h1 : eps ≤ meanLink sigma eps f := by
    rw [meanLink, npClip]
    exact le_min (le_max_right _ _) (by linarith)
  have h2 : meanLink sigma eps f ≤ 1 - eps := min_le_right _ _
  constructor <;> linarith

theorem meanLink_mono {sigma eps : ℝ} (hs : 0 < sigma) {f g : ℝ} (h : f ≤ g) :
    meanLink sigma eps f ≤ meanLink sigma eps g := by
  have hi : 0 ≤ isqrt2sig sigma := by unfold isqrt2sig; positivity
  have := stdNormCdf_mono (mul_le_mul_of_nonneg_right h hi)
  rw [meanLink, meanLink, npClip, npClip]
  exact min_le_min_right _ (max_le_max_right _ this)

/-! ## The mutual information -/

section
variable {N : Nat}

theorem aboveDensity_nonneg (a b m q : ℝ) : 0 ≤ aboveDensity a b m q := by
  unfold aboveDensity
  exact Set.indicator_nonneg (fun _ _ => div_nonneg zero_le_one measureReal_nonneg) q

theorem aboveDensity_eq (a b m q : ℝ) :
    aboveDensity a b m q = if decide (m < q) = true then 1 / ratingAbove a b m else 0 := by
  by_cases h : m < q
  · rw [aboveDensity, Set.indicator_of_mem (show q ∈ Set.Ioi m from h)]; simp [h]
  · rw [aboveDensity, Set.indicator_of_notMem (show q ∉ Set.Ioi m from h)]; simp [h]

theorem measurable_aboveDensity (a b m : ℝ) : Measurable (fun q => aboveDensity a b m q) :=
  measurable_const.indicator measurableSet_Ioi

/-- Functions of the comparisons with finitely many thresholds are integrable. -/
theorem integrable_threshold {a b : ℝ} (ha : 0 < a) (hb : 0 < b) (m : Fin N → ℝ) (φ : (Fin N → Bool) → ℝ)
    {f : ℝ → ℝ} (hf : Measurable f) (h : ∀ q, f q = φ fun B => decide (m B < q)) :
    Integrable f (betaMeasure a b) := by
  haveI : IsProbabilityMeasure (betaMeasure a b) := isProbabilityMeasureBeta ha hb
  refine Integrable.of_bound hf.aestronglyMeasurable (∑ s, |φ s|) (Filter.Eventually.of_forall fun q => ?_)
  rw [Real.norm_eq_abs, h]
  exact single_le_sum (f := fun s => |φ s|) (fun s _ => abs_nonneg _) (mem_univ _)

theorem integral_aboveDensity {a b m : ℝ} (ha : 0 < a) (hb : 0 < b) (hm : 0 < m) (hm' : m < 1) :
    ∫ q, aboveDensity a b m q ∂(betaMeasure a b) = 1 := by
  unfold aboveDensity
  rw [integral_indicator measurableSet_Ioi, setIntegral_const]
  have := ratingAbove_pos ha hb hm hm'
  rw [smul_eq_mul]
  exact mul_one_div_cancel this.ne'

theorem ratingInformation_bounds {a b : ℝ} (ha : 0 < a) (hb : 0 < b) {p : Fin N → ℝ} (hp : ∀ B, 0 < p B)
    (hsum : ∑ B, p B = 1) (m : Fin N → ℝ) (hm : ∀ B, 0 < m B ∧ m B < 1) :
    0 ≤ ratingInformation a b p m ∧
      ratingInformation a b p m ≤ ∑ B, p B * -Real.log (ratingAbove a b (m B)) := by
  haveI : IsProbabilityMeasure (betaMeasure a b) := isProbabilityMeasureBeta ha hb
  set ρ : Fin N → ℝ → ℝ := fun B q => aboveDensity a b (m B) q with hρ
  set g : ℝ → ℝ := fun q => ∑ B, p B * ρ B q with hg
  have hρm : ∀ B, Measurable (ρ B) := fun B => measurable_aboveDensity a b (m B)
  have hgm : Measurable g := Finset.measurable_sum _ fun B _ => (hρm B).const_mul _
  have hρ0 : ∀ B q, 0 ≤ ρ B q := fun B q => aboveDensity_nonneg a b (m B) q
  have hg0 : ∀ q, 0 ≤ g q := fun q => sum_nonneg fun B _ => mul_nonneg (hp B).le (hρ0 B q)
  have hgpos : ∀ B q, 0 < ρ B q → 0 < g q := fun B q h =>
    lt_of_lt_of_le (mul_pos (hp B) h)
      (single_le_sum (f := fun B => p B * ρ B q) (fun B _ => mul_nonneg (hp B).le (hρ0 B q)) (mem_univ B))
  set r : Fin N → (Fin N → Bool) → ℝ := fun B s => if s B = true then 1 / ratingAbove a b (m B) else 0 with hr
  have hρr : ∀ B q, ρ B q = r B fun B' => decide (m B' < q) := fun B q => aboveDensity_eq a b (m B) q
  have hρi : ∀ B, Integrable (ρ B) (betaMeasure a b) := fun B =>
    integrable_threshold ha hb m (r B) (hρm B) (hρr B)
  have hhm : ∀ B, Measurable (fun q => ρ B q * Real.log (ρ B q / g q)) := fun B =>
    (hρm B).mul (Real.measurable_log.comp ((hρm B).div hgm))
  have hhi : ∀ B, Integrable (fun q => ρ B q * Real.log (ρ B q / g q)) (betaMeasure a b) := fun B =>
    integrable_threshold ha hb m (fun s => r B s * Real.log (r B s / ∑ B', p B' * r B' s)) (hhm B) fun q => by
      simp only [hg, hρr]
  have hgi : Integrable g (betaMeasure a b) := integrable_finsetSum _ fun B _ => (hρi B).const_mul _
  have hint1 : ∀ B, ∫ q, ρ B q ∂(betaMeasure a b) = 1 := fun B =>
    integral_aboveDensity ha hb (hm B).1 (hm B).2
  have hgint : ∫ q, g q ∂(betaMeasure a b) = 1 := by
    simp only [hg]
    rw [integral_finsetSum _ fun B _ => (hρi B).const_mul _]
    simp only [integral_const_mul, hint1, mul_one, hsum]
  have hMI : ratingInformation a b p m = ∑ B, p B * ∫ q, ρ B q * Real.log (ρ B q / g q) ∂(betaMeasure a b) := rfl
  constructor
  · rw [hMI]
    have hB : ∀ B, 0 ≤ ∫ q, ρ B q * Real.log (ρ B q / g q) ∂(betaMeasure a b) := by
      intro B
      have hle : ∫ q, (ρ B q - g q) ∂(betaMeasure a b) ≤
          ∫ q, ρ B q * Real.log (ρ B q / g q) ∂(betaMeasure a b) := by
        refine integral_mono ((hρi B).sub hgi) (hhi B) fun q => ?_
        rcases (hρ0 B q).eq_or_lt with h | h
        · simp only [← h, zero_mul]
          linarith [hg0 q]
        · have hgq := hgpos B q h
          have hx : 0 < ρ B q / g q := div_pos h hgq
          have h1 := Real.one_sub_inv_le_log_of_pos hx
          have h2 := mul_le_mul_of_nonneg_left h1 h.le
          have e : ρ B q * (1 - (ρ B q / g q)⁻¹) = ρ B q - g q := by field_simp
          simp only
          linarith
      rw [integral_sub (hρi B) hgi, hint1, hgint, sub_self] at hle
      exact hle
    exact sum_nonneg fun B _ => mul_nonneg (hp B).le (hB B)
  · rw [hMI]
    have e1 : ∑ B, p B * ∫ q, ρ B q * Real.log (ρ B q / g q) ∂(betaMeasure a b) =
        ∫ q, ∑ B, p B * (ρ B q * Real.log (ρ B q / g q)) ∂(betaMeasure a b) := by
      rw [integral_finsetSum _ fun B _ => (hhi B).const_mul _]
      simp only [integral_const_mul]
    have hgs : Integrable (fun q => g q - 1) (betaMeasure a b) := hgi.sub (integrable_const _)
    have e2 : ∑ B, p B * -Real.log (ratingAbove a b (m B)) =
        ∫ q, ((∑ B, p B * (ρ B q * -Real.log (ratingAbove a b (m B)))) - (g q - 1)) ∂(betaMeasure a b) := by
      rw [integral_sub (integrable_finsetSum _ fun B _ => ((hρi B).mul_const _).const_mul _) hgs,
        integral_finsetSum _ fun B _ => ((hρi B).mul_const _).const_mul _,
        integral_sub hgi (integrable_const _), hgint]
      simp only [integral_const_mul, integral_mul_const, hint1, one_mul, integral_const, probReal_univ, smul_eq_mul,
        mul_one, sub_self, sub_zero]
    rw [e1, e2]
    refine integral_mono (integrable_finsetSum _ fun B _ => (hhi B).const_mul _)
      ((integrable_finsetSum _ fun B _ => ((hρi B).mul_const _).const_mul _).sub hgs)
      fun q => ?_
    have hpt : ∀ B, p B * (ρ B q * Real.log (ρ B q / g q)) =
        p B * (ρ B q * -Real.log (ratingAbove a b (m B))) - p B * ρ B q * Real.log (g q) := by
      intro B
      rcases (hρ0 B q).eq_or_lt with h | h
      · simp [← h]
      · have hgq := hgpos B q h
        have hv : ρ B q = 1 / ratingAbove a b (m B) := by
          rw [hρ]
          simp only
          have hne := h.ne'
          rw [hρ] at hne
          simp only [aboveDensity_eq] at hne ⊢
          split_ifs at hne ⊢ with hq
          · rfl
          · exact absurd rfl hne
        rw [Real.log_div h.ne' hgq.ne', hv, Real.log_div one_ne_zero (ratingAbove_pos ha hb (hm B).1 (hm B).2).ne',
          Real.log_one]
        ring
    simp only [hpt, sum_sub_distrib, ← sum_mul]
    have : g q - 1 ≤ g q * Real.log (g q) := by
      rcases (hg0 q).eq_or_lt with h | h
      · simp [← h]
      · have h1 := Real.one_sub_inv_le_log_of_pos h
        have h2 := mul_le_mul_of_nonneg_left h1 h.le
        have e : g q * (1 - (g q)⁻¹) = g q - 1 := by field_simp
        linarith
    have hgq : g q = ∑ B, p B * ρ B q := rfl
    rw [← hgq]
    linarith

theorem ratingInformation_const {p : Fin N → ℝ} (hsum : ∑ B, p B = 1) (a b m : ℝ) :
    ratingInformation a b p (fun _ => m) = 0 := by
  unfold ratingInformation
  refine sum_eq_zero fun B _ => ?_
  have : ∀ q, aboveDensity a b m q * Real.log (aboveDensity a b m q / ∑ B', p B' * aboveDensity a b m q) = 0 := by
    intro q
    rw [← sum_mul, hsum, one_mul]
    by_cases h : aboveDensity a b m q = 0
    · simp [h]
    · rw [div_self h, Real.log_one, mul_zero]
  simp [this]

end

end Lop
