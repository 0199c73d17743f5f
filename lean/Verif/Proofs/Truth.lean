import Verif.Spec.Truth
import Verif.Proofs.AbsCdf
import Verif.Proofs.OrdTail
import Mathlib.Algebra.BigOperators.Ring.Finset
import Mathlib.Analysis.SpecialFunctions.Log.Deriv
import Mathlib.Analysis.SpecialFunctions.Pow.NNReal

/-! # Helper lemmas: the expected log-likelihood -/

namespace Lop

open MeasureTheory ProbabilityTheory Spec

/-! ## Independent answers -/

section
variable {ι κ : Type} [Fintype ι] [DecidableEq ι] [Fintype κ]

theorem expect_prod (p f : ι → κ → ℝ) :
    ∑ a : ι → κ, (∏ i, p i (a i)) * ∏ i, f i (a i) = ∏ i, ∑ b, p i b * f i b := by
  classical
  rw [Finset.prod_univ_sum, Fintype.piFinset_univ]
  simp_rw [Finset.prod_mul_distrib]

theorem expect_total (p : ι → κ → ℝ) (hp : ∀ i, ∑ b, p i b = 1) : ∑ a : ι → κ, ∏ i, p i (a i) = 1 := by
  have := expect_prod p fun _ _ => 1
  simpa [hp] using this

theorem expect_one (p : ι → κ → ℝ) (hp : ∀ i, ∑ b, p i b = 1) (i0 : ι) (g : κ → ℝ) :
    ∑ a : ι → κ, (∏ i, p i (a i)) * g (a i0) = ∑ b, p i0 b * g b := by
  have h := expect_prod p fun i b => if i = i0 then g b else 1
  have e : ∀ a : ι → κ, ∏ i, (if i = i0 then g (a i) else 1) = g (a i0) := by
    intro a
    rw [Finset.prod_ite_eq' Finset.univ i0 fun i => g (a i)]
    simp
  simp_rw [e] at h
  rw [h, Finset.prod_eq_single i0]
  · simp
  · intro i _ hi
    simp [hi, hp]
  · simp

theorem expect_two (p : ι → κ → ℝ) (hp : ∀ i, ∑ b, p i b = 1) {i0 j0 : ι} (hij : i0 ≠ j0) (g h : κ → ℝ) :
    ∑ a : ι → κ, (∏ i, p i (a i)) * (g (a i0) * h (a j0)) = (∑ b, p i0 b * g b) * ∑ b, p j0 b * h b := by
  have e := expect_prod p fun i b => (if i = i0 then g b else 1) * (if i = j0 then h b else 1)
  have e1 : ∀ a : ι → κ, ∏ i, ((if i = i0 then g (a i) else 1) * (if i = j0 then h (a i) else 1)) =
      g (a i0) * h (a j0) := by
    intro a
    rw [Finset.prod_mul_distrib, Finset.prod_ite_eq' Finset.univ i0 fun i => g (a i),
      Finset.prod_ite_eq' Finset.univ j0 fun i => h (a i)]
    simp
  simp_rw [e1] at e
  rw [e, ← Finset.mul_prod_erase Finset.univ _ (Finset.mem_univ i0),
    ← Finset.mul_prod_erase (Finset.univ.erase i0) _ (Finset.mem_erase.2 ⟨hij.symm, Finset.mem_univ j0⟩),
    Finset.prod_eq_one]
  · simp [hij, hij.symm]
  · intro i hi
    simp only [Finset.mem_erase, Finset.mem_univ, and_true] at hi
    simp [hi.1, hi.2, hp]

theorem expect_sum (p : ι → κ → ℝ) (hp : ∀ i, ∑ b, p i b = 1) (g : ι → κ → ℝ) :
    ∑ a : ι → κ, (∏ i, p i (a i)) * ∑ i, g i (a i) = ∑ i, ∑ b, p i b * g i b := by
  simp_rw [Finset.mul_sum]
  rw [Finset.sum_comm]
  exact Finset.sum_congr rfl fun i _ => expect_one p hp i (g i)

theorem expect_sum_mul (p : ι → κ → ℝ) (hp : ∀ i, ∑ b, p i b = 1) (g h : ι → κ → ℝ)
    (hg : ∀ i, ∑ b, p i b * g i b = 0) :
    ∑ a : ι → κ, (∏ i, p i (a i)) * ((∑ i, g i (a i)) * ∑ i, h i (a i)) = ∑ i, ∑ b, p i b * (g i b * h i b) := by
  simp_rw [Finset.sum_mul_sum, Finset.mul_sum]
  rw [Finset.sum_comm]
  refine Finset.sum_congr rfl fun i _ => ?_
  rw [Finset.sum_comm, Finset.sum_eq_single i]
  · exact expect_one p hp i fun b => g i b * h i b
  · intro j _ hj
    rw [expect_two p hp hj.symm, hg, zero_mul]
  · simp

end

/-- `log x ≤ x - 1`, with equality for 1 only, as used for relative entropies. -/
theorem gibbs_term {p q : ℝ} (hp : 0 < p) (hq : 0 < q) : p * Real.log q ≤ p * Real.log p + (q - p) ∧
    (p * Real.log q = p * Real.log p + (q - p) → q = p) := by
  have e : p * Real.log q = p * Real.log p + p * Real.log (q / p) := by
    rw [Real.log_div hq.ne' hp.ne']
    ring
  have e2 : q - p = p * (q / p - 1) := by field_simp
  have h1 := Real.log_le_sub_one_of_pos (div_pos hq hp)
  refine ⟨by rw [e, e2]; nlinarith, fun h => ?_⟩
  by_contra hne
  have h2 := Real.log_lt_sub_one_of_pos (div_pos hq hp) fun h => hne ((div_eq_one_iff_eq hp.ne').1 h)
  rw [e, e2] at h
  nlinarith

theorem gibbs_sum {κ : Type} [Fintype κ] {p q : κ → ℝ} (hp : ∀ b, 0 < p b) (hq : ∀ b, 0 < q b)
    (hs : ∑ b, q b = ∑ b, p b) :
    ∑ b, p b * Real.log (q b) ≤ ∑ b, p b * Real.log (p b) ∧
    (∑ b, p b * Real.log (q b) = ∑ b, p b * Real.log (p b) → q = p) := by
  have e : ∑ b, (p b * Real.log (p b) + (q b - p b)) = ∑ b, p b * Real.log (p b) := by
    rw [Finset.sum_add_distrib, Finset.sum_sub_distrib, hs, sub_self, add_zero]
  rw [← e]
  refine ⟨Finset.sum_le_sum fun b _ => (gibbs_term (hp b) (hq b)).1, fun h => ?_⟩
  have h2 := (Finset.sum_eq_sum_iff_of_le fun b _ => (gibbs_term (hp b) (hq b)).1).1 h
  exact funext fun b => (gibbs_term (hp b) (hq b)).2 (h2 b (Finset.mem_univ b))

theorem gibbs_list {ι κ : Type} [Fintype ι] [Fintype κ] {p q : ι → κ → ℝ} (hp : ∀ i b, 0 < p i b)
    (hq : ∀ i b, 0 < q i b) (hs : ∀ i, ∑ b, q i b = ∑ b, p i b) :
    ∑ i, ∑ b, p i b * Real.log (q i b) ≤ ∑ i, ∑ b, p i b * Real.log (p i b) ∧
    (∑ i, ∑ b, p i b * Real.log (q i b) = ∑ i, ∑ b, p i b * Real.log (p i b) → q = p) := by
  refine ⟨Finset.sum_le_sum fun i _ => (gibbs_sum (hp i) (hq i) (hs i)).1, fun h => ?_⟩
  have h2 := (Finset.sum_eq_sum_iff_of_le fun i _ => (gibbs_sum (hp i) (hq i) (hs i)).1).1 h
  exact funext fun i => (gibbs_sum (hp i) (hq i) (hs i)).2 (h2 i (Finset.mem_univ i))

/-! ## Pairs -/

/-- Standardised difference seen from the answer `b` to question `i`. -/
noncomputable def ansZ {n k : Nat} (sigma : ℝ) (qs : Fin k → Fin n × Fin n) (F : Fin n → ℝ) (i : Fin k) (b : Bool) : ℝ :=
  (if b then 1 else -1) * ((F (qs i).2 - F (qs i).1) * isqrt2sig sigma)

section
variable {n k : Nat} {sigma : ℝ} {qs : Fin k → Fin n × Fin n} {F : Fin n → ℝ}

theorem ansZ_zk (i : Fin k) (b : Bool) :
    zk sigma F ⟨if b then 1 else -1, (qs i).1, (qs i).2⟩ = ansZ sigma qs F i b := by
  cases b <;> simp [zk, ansZ] <;> ring

theorem ansZ_mem (h : QuestionsInRange sigma qs F) (i : Fin k) (b : Bool) :
    -30 ≤ ansZ sigma qs F i b ∧ ansZ sigma qs F i b ≤ 30 := by
  have h1 := h i
  have e : (F (qs i).2 - F (qs i).1) / (Real.sqrt 2 * sigma) = (F (qs i).2 - F (qs i).1) * isqrt2sig sigma := by
    rw [isqrt2sig, mul_comm sigma]
    ring
  rw [e] at h1
  have := abs_le.1 h1
  cases b <;> simp [ansZ] <;> constructor <;> linarith

theorem ansZ_false (i : Fin k) : ansZ sigma qs F i false = -ansZ sigma qs F i true := by simp [ansZ]

theorem answers_likelihood (h : QuestionsInRange sigma qs F) (a : Fin k → Bool) :
    (prefLikelihood sigma (answerLabels qs a) F).prod = ∏ i, Phi (ansZ sigma qs F i (a i)) := by
  rw [prefLikelihood, answerLabels, List.map_ofFn, List.prod_ofFn]
  refine Finset.prod_congr rfl fun i _ => ?_
  have := ansZ_mem h i (a i)
  simp only [Function.comp, ansZ_zk]
  rw [stdNormCdf_of_mem this.1 (by linarith)]

theorem answers_logLik (h : QuestionsInRange sigma qs F) (a : Fin k → Bool) :
    prefLogLik sigma (answerLabels qs a) F = ∑ i, Real.log (Phi (ansZ sigma qs F i (a i))) := by
  rw [prefLogLik, answerLabels, List.map_ofFn, List.sum_ofFn]
  refine Finset.sum_congr rfl fun i _ => ?_
  have := ansZ_mem h i (a i)
  simp only [Function.comp, ansZ_zk]
  rw [npClip_of_mem this.1 (by linarith)]

theorem answers_derv (h : QuestionsInRange sigma qs F) (a : Fin k → Bool) (j : Fin n) :
    prefDerv sigma (answerLabels qs a) F j = ∑ i, (if a i then 1 else -1) * mratio (ansZ sigma qs F i (a i)) *
      isqrt2sig sigma * inc ⟨1, (qs i).1, (qs i).2⟩ j := by
  rw [prefDerv_apply, answerLabels, List.map_ofFn, List.sum_ofFn]
  refine Finset.sum_congr rfl fun i _ => ?_
  have := ansZ_mem h i (a i)
  simp only [Function.comp, ansZ_zk]
  rw [pdfCdfRatio_of_mem this.1 (by linarith)]
  cases a i <;> simp [inc]

theorem answers_W (h : QuestionsInRange sigma qs F) (a : Fin k → Bool) (j l : Fin n) :
    prefW sigma (answerLabels qs a) F j l = ∑ i, mcurv (ansZ sigma qs F i (a i)) * isqrt2sig sigma ^ 2 *
      (inc ⟨1, (qs i).1, (qs i).2⟩ j * inc ⟨1, (qs i).1, (qs i).2⟩ l) := by
  rw [prefW_apply, answerLabels, List.map_ofFn, List.sum_ofFn]
  refine Finset.sum_congr rfl fun i _ => ?_
  have := ansZ_mem h i (a i)
  simp only [Function.comp, ansZ_zk]
  rw [pdfCdfRatio_of_mem this.1 (by linarith), pdfCdfRatio2_of_mem this.1 (by linarith), mcurv]
  cases a i <;> simp [inc] <;> exact .inl (by ring)

theorem answers_one (i : Fin k) : ∑ b, Phi (ansZ sigma qs F i b) = 1 := by
  rw [Fintype.sum_bool, ansZ_false, Phi_neg]
  ring

theorem Phi_mul_mratio (z : ℝ) : Phi z * mratio z = phi z := by
  rw [mratio]
  exact mul_div_cancel₀ _ (Phi_pos z).ne'

theorem score_zero (c : ℝ) (i : Fin k) :
    ∑ b : Bool, Phi (ansZ sigma qs F i b) * ((if b then 1 else -1) * mratio (ansZ sigma qs F i b) * c) = 0 := by
  rw [Fintype.sum_bool]
  have h1 := Phi_mul_mratio (ansZ sigma qs F i true)
  have h2 := Phi_mul_mratio (ansZ sigma qs F i false)
  rw [ansZ_false, phi_neg, ← ansZ_false] at h2
  simp only [if_true, Bool.false_eq_true, if_false]
  linear_combination c * h1 - c * h2

theorem curvature_score (i : Fin k) :
    ∑ b : Bool, Phi (ansZ sigma qs F i b) * mcurv (ansZ sigma qs F i b) =
      ∑ b : Bool, Phi (ansZ sigma qs F i b) * mratio (ansZ sigma qs F i b) ^ 2 := by
  rw [Fintype.sum_bool, Fintype.sum_bool]
  have h1 := Phi_mul_mratio (ansZ sigma qs F i true)
  have h2 := Phi_mul_mratio (ansZ sigma qs F i false)
  rw [ansZ_false, phi_neg, ← ansZ_false] at h2
  simp only [mcurv]
  have h3 : ansZ sigma qs F i false = -ansZ sigma qs F i true := ansZ_false i
  linear_combination ansZ sigma qs F i true * h1 + ansZ sigma qs F i false * h2 + phi (ansZ sigma qs F i true) * h3

end

/-! ## Ordinal ratings -/

section
variable {m k : Nat} {o : OrdHyper ℝ} {t : List ℝ} {idx : Fin k → Fin m} {F : Fin m → ℝ}

theorem rated_likelihood (ht : HasThresholds o t) (hr : RatedInRange t o.sigma idx F) (a : Fin k → Fin o.n) :
    ordLikelihood o (ratedLabels idx a) F = .ok (∏ i, ordProb t o.sigma (a i + 1) (F (idx i))) := by
  have e : ratedLabels idx a = castLabels (List.ofFn fun i => ((a i : Nat) + 1, idx i)) := by
    simp [ratedLabels, castLabels, List.map_ofFn, Function.comp_def]
  have h := ordLikEach_eq ht (List.ofFn fun i => ((a i : Nat) + 1, idx i)) F ?_ ?_
  · rw [e, ordLikelihood, h, List.map_ofFn]
    simp only [bind, Except.bind, pure, Except.pure, Except.ok.injEq]
    rw [List.prod_ofFn]
    rfl
  · intro p hp
    obtain ⟨i, rfl⟩ := (List.mem_ofFn' _ _).1 hp
    have := (a i).isLt
    simp only
    omega
  · intro p hp j x _ hj
    obtain ⟨i, rfl⟩ := (List.mem_ofFn' _ _).1 hp
    exact hr i x (List.mem_of_getElem? hj)

theorem rated_one (ht : HasThresholds o t) (f : ℝ) : ∑ b : Fin o.n, ordProb t o.sigma (b + 1) f = 1 := by
  rw [Fin.sum_univ_eq_sum_range (fun b => ordProb t o.sigma (b + 1) f)]
  simp only [ordProb, Nat.add_sub_cancel]
  rw [Finset.sum_range_sub (fun b => ordCum t o.sigma b f), ht.2]
  simp [ordCum]

end

/-! ## Ratings in [0, 1] -/

theorem beta_log_integrable {a b : ℝ} (ha : 0 < a) (hb : 0 < b) :
    Integrable fun q => betaPDFReal a b q * Real.log q := by
  refine Integrable.mono' ((integrable_beta (half_pos ha) hb).const_mul (beta (a / 2) b / beta a b * (1 / (a / 2))))
    ((integrable_beta ha hb).aestronglyMeasurable.mul Real.measurable_log.aestronglyMeasurable) (.of_forall fun q => ?_)
  by_cases h : 0 < q ∧ q < 1
  · have h1 := Real.abs_log_mul_self_rpow_lt q (a / 2) h.1 h.2.le (half_pos ha)
    have h2 : 0 < 1 - q := by linarith [h.2]
    have p1 := beta_pos ha hb
    have p2 := beta_pos (half_pos ha) hb
    rw [betaPDFReal, if_pos h, betaPDFReal, if_pos h, Real.norm_eq_abs]
    have e : q ^ (a - 1) = q ^ (a / 2 - 1) * q ^ (a / 2) := by
      rw [← Real.rpow_add h.1]
      congr 1
      ring
    have e2 : 1 / beta a b * q ^ (a - 1) * (1 - q) ^ (b - 1) * Real.log q =
        1 / beta a b * q ^ (a / 2 - 1) * (1 - q) ^ (b - 1) * (Real.log q * q ^ (a / 2)) := by
      rw [e]
      ring
    have e3 : beta (a / 2) b / beta a b * (1 / (a / 2)) * (1 / beta (a / 2) b * q ^ (a / 2 - 1) * (1 - q) ^ (b - 1)) =
        1 / beta a b * q ^ (a / 2 - 1) * (1 - q) ^ (b - 1) * (1 / (a / 2)) := by
      field_simp
    have p3 : 0 ≤ 1 / beta a b * q ^ (a / 2 - 1) * (1 - q) ^ (b - 1) := by
      have := Real.rpow_nonneg h.1.le (a / 2 - 1)
      have := Real.rpow_nonneg h2.le (b - 1)
      positivity
    rw [e2, e3, abs_mul, abs_of_nonneg p3]
    exact mul_le_mul_of_nonneg_left h1.le p3
  · simp [betaPDFReal, h]

theorem beta_log1_integrable {a b : ℝ} (ha : 0 < a) (hb : 0 < b) :
    Integrable fun q => betaPDFReal a b q * Real.log (1 - q) := by
  have h := (beta_log_integrable hb ha).comp_sub_left 1
  refine h.congr (.of_forall fun q => ?_)
  simp only [sub_sub_cancel]
  congr 1
  by_cases h : 0 < q ∧ q < 1
  · rw [betaPDFReal, if_pos ⟨by linarith, by linarith⟩, betaPDFReal, if_pos h, beta, beta, sub_sub_cancel, add_comm b a]
    ring
  · rw [betaPDFReal, if_neg fun h' => h ⟨by linarith, by linarith⟩, betaPDFReal, if_neg h]

theorem log_betaPDF {a b q : ℝ} (ha : 0 < a) (hb : 0 < b) (h : 0 < q ∧ q < 1) : Real.log (betaPDFReal a b q) =
    (a - 1) * Real.log q + (b - 1) * Real.log (1 - q) - Real.log (beta a b) := by
  have h2 : 0 < 1 - q := by linarith [h.2]
  have p1 := beta_pos ha hb
  have p2 := Real.rpow_pos_of_pos h.1 (a - 1)
  have p3 := Real.rpow_pos_of_pos h2 (b - 1)
  rw [betaPDFReal, if_pos h, Real.log_mul (by positivity) (by positivity), Real.log_mul (by positivity) (by positivity),
    Real.log_rpow h.1, Real.log_rpow h2, one_div, Real.log_inv]
  ring

theorem beta_cross_eq {a b a' b' : ℝ} (ha' : 0 < a') (hb' : 0 < b') (q : ℝ) :
    betaPDFReal a b q * Real.log (betaPDFReal a' b' q) = (a' - 1) * (betaPDFReal a b q * Real.log q) +
      (b' - 1) * (betaPDFReal a b q * Real.log (1 - q)) - Real.log (beta a' b') * betaPDFReal a b q := by
  by_cases h : 0 < q ∧ q < 1
  · rw [log_betaPDF ha' hb' h]
    ring
  · simp [betaPDFReal, h]

theorem beta_cross_integrable {a b a' b' : ℝ} (ha : 0 < a) (hb : 0 < b) (ha' : 0 < a') (hb' : 0 < b') :
    Integrable fun q => betaPDFReal a b q * Real.log (betaPDFReal a' b' q) := by
  refine Integrable.congr ((((beta_log_integrable ha hb).const_mul (a' - 1)).add
    ((beta_log1_integrable ha hb).const_mul (b' - 1))).sub ((integrable_beta ha hb).const_mul (Real.log (beta a' b')))) ?_
  exact .of_forall fun q => (beta_cross_eq ha' hb' q).symm

theorem beta_cross {a b a' b' : ℝ} (ha : 0 < a) (hb : 0 < b) (ha' : 0 < a') (hb' : 0 < b') :
    ∫ q, betaPDFReal a b q * Real.log (betaPDFReal a' b' q) =
      (a' - 1) * (∫ q, betaPDFReal a b q * Real.log q) + (b' - 1) * (∫ q, betaPDFReal a b q * Real.log (1 - q)) -
        Real.log (beta a' b') := by
  simp_rw [beta_cross_eq ha' hb']
  have i1 := (beta_log_integrable ha hb).const_mul (a' - 1)
  have i2 := (beta_log1_integrable ha hb).const_mul (b' - 1)
  have i3 := (integrable_beta ha hb).const_mul (Real.log (beta a' b'))
  have i12 : Integrable fun q => (a' - 1) * (betaPDFReal a b q * Real.log q) +
      (b' - 1) * (betaPDFReal a b q * Real.log (1 - q)) := i1.add i2
  rw [integral_sub i12 i3, integral_add i1 i2, integral_const_mul, integral_const_mul, integral_const_mul,
    integral_beta ha hb, mul_one]

/-- The gap in the inequality of Gibbs, pointwise. -/
theorem beta_gap_nonneg {a b a' b' : ℝ} (ha : 0 < a) (hb : 0 < b) (ha' : 0 < a') (hb' : 0 < b') (q : ℝ) :
    0 ≤ betaPDFReal a b q * Real.log (betaPDFReal a b q) + (betaPDFReal a' b' q - betaPDFReal a b q) -
      betaPDFReal a b q * Real.log (betaPDFReal a' b' q) := by
  by_cases h : 0 < q ∧ q < 1
  · have := (gibbs_term (betaPDFReal_pos h.1 h.2 ha hb) (betaPDFReal_pos h.1 h.2 ha' hb')).1
    linarith
  · simp [betaPDFReal, h]

theorem beta_gap_integral {a b a' b' : ℝ} (ha : 0 < a) (hb : 0 < b) (ha' : 0 < a') (hb' : 0 < b') :
    (Integrable fun q => betaPDFReal a b q * Real.log (betaPDFReal a b q) + (betaPDFReal a' b' q - betaPDFReal a b q) -
      betaPDFReal a b q * Real.log (betaPDFReal a' b' q)) ∧
    ∫ q, betaPDFReal a b q * Real.log (betaPDFReal a b q) + (betaPDFReal a' b' q - betaPDFReal a b q) -
      betaPDFReal a b q * Real.log (betaPDFReal a' b' q) =
    (∫ q, betaPDFReal a b q * Real.log (betaPDFReal a b q)) - ∫ q, betaPDFReal a b q * Real.log (betaPDFReal a' b' q) := by
  have i1 := beta_cross_integrable ha hb ha hb
  have i2 := beta_cross_integrable ha hb ha' hb'
  have i3 : Integrable fun q => betaPDFReal a' b' q - betaPDFReal a b q := (integrable_beta ha' hb').sub (integrable_beta ha hb)
  have i4 : Integrable fun q => betaPDFReal a b q * Real.log (betaPDFReal a b q) +
    (betaPDFReal a' b' q - betaPDFReal a b q) := i1.add i3
  refine ⟨i4.sub i2, ?_⟩
  rw [integral_sub i4 i2, integral_add i1 i3, integral_sub (integrable_beta ha' hb') (integrable_beta ha hb),
    integral_beta ha hb, integral_beta ha' hb', sub_self, add_zero]

theorem beta_gibbs {a b a' b' : ℝ} (ha : 0 < a) (hb : 0 < b) (ha' : 0 < a') (hb' : 0 < b') :
    ∫ q, betaPDFReal a b q * Real.log (betaPDFReal a' b' q) ≤ ∫ q, betaPDFReal a b q * Real.log (betaPDFReal a b q) := by
  have h1 := integral_nonneg_of_ae (μ := volume) (.of_forall fun q => beta_gap_nonneg ha hb ha' hb' q)
  rw [(beta_gap_integral ha hb ha' hb').2] at h1
  linarith

/-- Strict when the densities differ on an interval. -/
theorem beta_gibbs_strict {a b a' b' l u : ℝ} (ha : 0 < a) (hb : 0 < b) (ha' : 0 < a') (hb' : 0 < b') (hl : 0 ≤ l)
    (hlu : l < u) (hu : u ≤ 1) (hne : ∀ q, l < q → q < u → betaPDFReal a' b' q ≠ betaPDFReal a b q) :
    ∫ q, betaPDFReal a b q * Real.log (betaPDFReal a' b' q) < ∫ q, betaPDFReal a b q * Real.log (betaPDFReal a b q) := by
  obtain ⟨h0, h1⟩ := beta_gap_integral ha hb ha' hb'
  have h2 : 0 < ∫ q in Set.univ, betaPDFReal a b q * Real.log (betaPDFReal a b q) +
      (betaPDFReal a' b' q - betaPDFReal a b q) - betaPDFReal a b q * Real.log (betaPDFReal a' b' q) := by
    refine setIntegral_pos_of_Ioo MeasurableSet.univ hlu (Set.subset_univ _) (fun q _ => beta_gap_nonneg ha hb ha' hb' q)
      (fun q hq => ?_) h0.integrableOn
    refine lt_of_le_of_ne (beta_gap_nonneg ha hb ha' hb' q) fun h => hne q hq.1 hq.2 ?_
    have p0 : 0 < q := lt_of_le_of_lt hl hq.1
    have p1 : q < 1 := lt_of_lt_of_le hq.2 hu
    exact (gibbs_term (betaPDFReal_pos p0 p1 ha hb) (betaPDFReal_pos p0 p1 ha' hb')).2 (by linarith)
  rw [setIntegral_univ, h1] at h2
  linarith

/-- Two beta densities, one shifted upwards, differ on one half of the unit interval. -/
theorem beta_differ {a b a' b' : ℝ} (ha : 0 < a) (hb : 0 < b) (ha' : 0 < a') (hb' : 0 < b') (haa : a < a') (hbb : b' < b) :
    (∀ q, 0 < q → q < 1 / 2 → betaPDFReal a' b' q ≠ betaPDFReal a b q) ∨
    (∀ q, 1 / 2 < q → q < 1 → betaPDFReal a' b' q ≠ betaPDFReal a b q) := by
  by_contra hcon
  push Not at hcon
  obtain ⟨⟨x, x0, x1, hx⟩, y, y0, y1, hy⟩ := hcon
  have := beta_mlr ha hb ha' hb' haa hbb x0 (by linarith : x < y) y1
  rw [hx, hy, mul_comm] at this
  exact lt_irrefl _ this

theorem beta_gibbs_ne {a b a' b' : ℝ} (ha : 0 < a) (hb : 0 < b) (ha' : 0 < a') (hb' : 0 < b')
    (h : (a < a' ∧ b' < b) ∨ (a' < a ∧ b < b')) :
    ∫ q, betaPDFReal a b q * Real.log (betaPDFReal a' b' q) < ∫ q, betaPDFReal a b q * Real.log (betaPDFReal a b q) := by
  have key : (∀ q, 0 < q → q < 1 / 2 → betaPDFReal a' b' q ≠ betaPDFReal a b q) ∨
      (∀ q, 1 / 2 < q → q < 1 → betaPDFReal a' b' q ≠ betaPDFReal a b q) := by
    rcases h with h | h
    · exact beta_differ ha hb ha' hb' h.1 h.2
    · exact (beta_differ ha' hb' ha hb h.1 h.2).imp (fun h q h0 h1 => (h q h0 h1).symm) fun h q h0 h1 => (h q h0 h1).symm
  rcases key with h | h
  · exact beta_gibbs_strict ha hb ha' hb' le_rfl (by norm_num) (by norm_num) h
  · exact beta_gibbs_strict ha hb ha' hb' (by norm_num) (by norm_num) le_rfl h

/-- The mean of the log-odds of a beta variable, from the maximum of the expected log-density. -/
theorem beta_log_odds {a b : ℝ} (ha : 0 < a) (hb : 0 < b) :
    (∫ q, betaPDFReal a b q * Real.log q) - (∫ q, betaPDFReal a b q * Real.log (1 - q)) = digamma a - digamma b := by
  set A := ∫ q, betaPDFReal a b q * Real.log q with hA
  set B := ∫ q, betaPDFReal a b q * Real.log (1 - q) with hB
  let L : ℝ → ℝ := fun s => (a + s - 1) * A + (b - s - 1) * B - (logGamma (a + s) + logGamma (b - s) - logGamma (a + b))
  have hL : ∀ s, -a < s → s < b → L s = ∫ q, betaPDFReal a b q * Real.log (betaPDFReal (a + s) (b - s) q) := by
    intro s h1 h2
    have p1 : 0 < a + s := by linarith
    have p2 : 0 < b - s := by linarith
    rw [beta_cross ha hb p1 p2]
    simp only [L, logGamma, beta]
    rw [Real.log_div (mul_pos (Real.Gamma_pos_of_pos p1) (Real.Gamma_pos_of_pos p2)).ne' (Real.Gamma_pos_of_pos (by linarith)).ne',
      Real.log_mul (Real.Gamma_pos_of_pos p1).ne' (Real.Gamma_pos_of_pos p2).ne', show a + s + (b - s) = a + b by ring]
  have hmax : IsLocalMax L 0 := by
    have : Set.Ioo (-a) b ∈ nhds (0 : ℝ) := Ioo_mem_nhds (by linarith) hb
    filter_upwards [this] with s hs
    rw [hL s hs.1 hs.2, hL 0 (by linarith) hb, add_zero, sub_zero]
    exact beta_gibbs ha hb (by linarith [hs.1]) (by linarith [hs.2])
  have d1 : HasDerivAt (fun s : ℝ => a + s) 1 0 := (hasDerivAt_id (0 : ℝ)).const_add a
  have d2 : HasDerivAt (fun s : ℝ => b - s) (-1) 0 := (hasDerivAt_id (0 : ℝ)).const_sub b
  have g1 : HasDerivAt (fun s => logGamma (a + s)) (digamma a * 1) 0 :=
    HasDerivAt.comp (h₂ := logGamma) (0 : ℝ) (by simpa using hasDerivAt_logGamma ha) d1
  have g2 : HasDerivAt (fun s => logGamma (b - s)) (digamma b * -1) 0 :=
    HasDerivAt.comp (h₂ := logGamma) (0 : ℝ) (by simpa using hasDerivAt_logGamma hb) d2
  have d : HasDerivAt L (1 * A + -1 * B - (digamma a * 1 + digamma b * -1)) 0 :=
    (((d1.sub_const 1).mul_const A).add ((d2.sub_const 1).mul_const B)).sub ((g1.add g2).sub_const _)
  have := hmax.hasDerivAt_eq_zero d
  linarith

end Lop
