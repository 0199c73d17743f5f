import Verif.Proofs.Truth

/-! # C125: answers drawn from a probit are best explained by the values they were drawn from -/

namespace Lop.Props

open Lop.Spec MeasureTheory ProbabilityTheory

variable {n m k : Nat}

/-- C125, pairs: `likelihood` is a distribution over all the ways to answer a list of questions (repetitions allowed), and the
expected `log_likelihood` of answers drawn from it at `F` is largest at `F` – and only at the value vectors with the same
differences in all questions. -/
theorem C125_pairs {sigma : ℝ} (hs : 0 < sigma) (qs : Fin k → Fin n × Fin n) (F G : Fin n → ℝ)
    (hF : QuestionsInRange sigma qs F) (hG : QuestionsInRange sigma qs G) :
    let P := fun a => (prefLikelihood sigma (answerLabels qs a) F).prod
    ∑ a, P a = 1 ∧
    ∑ a, P a * prefLogLik sigma (answerLabels qs a) G ≤ ∑ a, P a * prefLogLik sigma (answerLabels qs a) F ∧
    (∑ a, P a * prefLogLik sigma (answerLabels qs a) G = ∑ a, P a * prefLogLik sigma (answerLabels qs a) F ↔
      ∀ i, G (qs i).2 - G (qs i).1 = F (qs i).2 - F (qs i).1) := by
  intro P
  have hone : ∀ i, ∑ b, Phi (ansZ sigma qs F i b) = 1 := fun i => answers_one i
  have key : ∀ {H : Fin n → ℝ}, QuestionsInRange sigma qs H → ∑ a, P a * prefLogLik sigma (answerLabels qs a) H =
      ∑ i, ∑ b, Phi (ansZ sigma qs F i b) * Real.log (Phi (ansZ sigma qs H i b)) := by
    intro H hH
    rw [← expect_sum _ hone fun i b => Real.log (Phi (ansZ sigma qs H i b))]
    exact Finset.sum_congr rfl fun a _ => by simp only [P]; rw [answers_likelihood hF, answers_logLik hH]
  have hg := gibbs_list (p := fun i b => Phi (ansZ sigma qs F i b)) (q := fun i b => Phi (ansZ sigma qs G i b))
    (fun _ _ => Phi_pos _) (fun _ _ => Phi_pos _) fun i => by simp only [answers_one]
  rw [key hF, key hG]
  refine ⟨?_, hg.1, fun h i => ?_, fun h => ?_⟩
  · rw [← expect_total _ hone]
    exact Finset.sum_congr rfl fun a _ => answers_likelihood hF a
  · have h1 := congrFun (congrFun (hg.2 h) i) true
    have h2 := Phi_strictMono.injective h1
    have h3 : isqrt2sig sigma ≠ 0 := by unfold isqrt2sig; positivity
    simpa [ansZ, h3] using h2
  · have : ∀ i b, ansZ sigma qs G i b = ansZ sigma qs F i b := fun i b => by rw [ansZ, ansZ, h i]
    simp_rw [this]

/-- C125, pairs: at the true values the expected gradient is zero, and the expected matrix `W` is the covariance matrix of the
gradient. -/
theorem C125_gradient {sigma : ℝ} (qs : Fin k → Fin n × Fin n) (F : Fin n → ℝ) (hF : QuestionsInRange sigma qs F)
    (j l : Fin n) :
    let P := fun a => (prefLikelihood sigma (answerLabels qs a) F).prod
    ∑ a, P a * prefDerv sigma (answerLabels qs a) F j = 0 ∧
    ∑ a, P a * prefW sigma (answerLabels qs a) F j l =
      ∑ a, P a * (prefDerv sigma (answerLabels qs a) F j * prefDerv sigma (answerLabels qs a) F l) := by
  intro P
  have hone : ∀ i, ∑ b, Phi (ansZ sigma qs F i b) = 1 := fun i => answers_one i
  have hz : ∀ (j : Fin n) (i : Fin k), ∑ b, Phi (ansZ sigma qs F i b) * ((if b then 1 else -1) *
      mratio (ansZ sigma qs F i b) * isqrt2sig sigma * inc ⟨1, (qs i).1, (qs i).2⟩ j) = 0 := by
    intro j i
    have h := score_zero (sigma := sigma) (qs := qs) (F := F) (isqrt2sig sigma * inc ⟨1, (qs i).1, (qs i).2⟩ j) i
    rw [← h]
    exact Finset.sum_congr rfl fun b _ => by ring
  refine ⟨?_, ?_⟩
  · rw [← Finset.sum_eq_zero fun i (_ : i ∈ Finset.univ) => hz j i, ← expect_sum _ hone fun i b => (if b then 1 else -1) *
      mratio (ansZ sigma qs F i b) * isqrt2sig sigma * inc ⟨1, (qs i).1, (qs i).2⟩ j]
    exact Finset.sum_congr rfl fun a _ => by simp only [P]; rw [answers_likelihood hF, answers_derv hF]
  · have e1 : ∑ a, P a * prefW sigma (answerLabels qs a) F j l = ∑ i, ∑ b, Phi (ansZ sigma qs F i b) *
        (mcurv (ansZ sigma qs F i b) * isqrt2sig sigma ^ 2 *
          (inc ⟨1, (qs i).1, (qs i).2⟩ j * inc ⟨1, (qs i).1, (qs i).2⟩ l)) := by
      rw [← expect_sum _ hone fun i b => mcurv (ansZ sigma qs F i b) * isqrt2sig sigma ^ 2 *
          (inc ⟨1, (qs i).1, (qs i).2⟩ j * inc ⟨1, (qs i).1, (qs i).2⟩ l)]
      exact Finset.sum_congr rfl fun a _ => by simp only [P]; rw [answers_likelihood hF, answers_W hF]
    have e2 : ∑ a, P a * (prefDerv sigma (answerLabels qs a) F j * prefDerv sigma (answerLabels qs a) F l) =
        ∑ i, ∑ b, Phi (ansZ sigma qs F i b) * (((if b then 1 else -1) * mratio (ansZ sigma qs F i b) * isqrt2sig sigma *
          inc ⟨1, (qs i).1, (qs i).2⟩ j) * ((if b then 1 else -1) * mratio (ansZ sigma qs F i b) * isqrt2sig sigma *
          inc ⟨1, (qs i).1, (qs i).2⟩ l)) := by
      rw [← expect_sum_mul _ hone (fun i b => (if b then 1 else -1) * mratio (ansZ sigma qs F i b) * isqrt2sig sigma *
          inc ⟨1, (qs i).1, (qs i).2⟩ j) (fun i b => (if b then 1 else -1) * mratio (ansZ sigma qs F i b) * isqrt2sig sigma *
          inc ⟨1, (qs i).1, (qs i).2⟩ l) (hz j)]
      exact Finset.sum_congr rfl fun a _ => by
        simp only [P]; rw [answers_likelihood hF, answers_derv hF, answers_derv hF]
    rw [e1, e2]
    refine Finset.sum_congr rfl fun i _ => ?_
    have h := curvature_score (sigma := sigma) (qs := qs) (F := F) i
    rw [Fintype.sum_bool, Fintype.sum_bool] at h ⊢
    simp only [if_true, Bool.false_eq_true, if_false]
    linear_combination isqrt2sig sigma ^ 2 * (inc ⟨1, (qs i).1, (qs i).2⟩ j * inc ⟨1, (qs i).1, (qs i).2⟩ l) * h

/-- C125 refuted beyond the limits of the cdf: values further apart than the true ones explain the answers better when the true
difference is 30 standard deviations. -/
theorem C125_clipped_false {sigma : ℝ} (F G : Fin 2 → ℝ) (hF : (F 1 - F 0) * isqrt2sig sigma = 30)
    (hG : 30 < (G 1 - G 0) * isqrt2sig sigma) (hG' : (G 1 - G 0) * isqrt2sig sigma ≤ 100) :
    let qs : Fin 1 → Fin 2 × Fin 2 := fun _ => (0, 1)
    let P := fun a => (prefLikelihood sigma (answerLabels qs a) F).prod
    ∑ a, P a * prefLogLik sigma (answerLabels qs a) F < ∑ a, P a * prefLogLik sigma (answerLabels qs a) G := by
  intro qs P
  have hp : ∀ a, 0 < P a := by
    intro a
    simp only [P, prefLikelihood, answerLabels, List.map_ofFn, List.prod_ofFn]
    exact Finset.prod_pos fun i _ => stdNormCdf_pos _
  have hl : ∀ (a : Fin 1 → Bool) (H : Fin 2 → ℝ), prefLogLik sigma (answerLabels qs a) H =
      Real.log (Phi (npClip (-30) 100 ((if a 0 then 1 else -1) * ((H 1 - H 0) * isqrt2sig sigma)))) := by
    intro a H
    simp only [prefLogLik, answerLabels, List.map_ofFn, List.sum_ofFn, Finset.univ_unique, Finset.sum_singleton,
      Fin.default_eq_zero, Function.comp, ansZ_zk]
    rfl
  refine Finset.sum_lt_sum (fun a _ => mul_le_mul_of_nonneg_left ?_ (hp a).le)
    ⟨fun _ => true, Finset.mem_univ _, mul_lt_mul_of_pos_left ?_ (hp _)⟩
  · rw [hl, hl, hF]
    cases a 0
    · rw [show npClip (-30) 100 ((if false = true then 1 else -1) * ((G 1 - G 0) * isqrt2sig sigma)) = -30 from ?_,
        show npClip (-30) 100 ((if false = true then (1 : ℝ) else -1) * 30) = -30 by norm_num [npClip]]
      simp only [Bool.false_eq_true, if_false, npClip]
      rw [max_eq_right (by linarith), min_eq_left (by norm_num)]
    · simp only [if_true, one_mul]
      rw [npClip_of_mem (by norm_num) (by norm_num), npClip_of_mem (by linarith) hG']
      exact Real.log_le_log (Phi_pos _) (Phi_strictMono.monotone hG.le)
  · rw [hl, hl, hF]
    simp only [if_true, one_mul]
    rw [npClip_of_mem (by norm_num) (by norm_num), npClip_of_mem (by linarith) hG']
    exact Real.log_lt_log (Phi_pos _) (Phi_strictMono hG)

/-- C125, ordinal ratings: the same for any list of rated items – `likelihood` is a distribution over all lists of ratings
1..n, and the expected log-likelihood is largest at the true values, and only there. -/
theorem C125_ordinal (o : OrdHyper ℝ) (t : List ℝ) (ht : HasThresholds o t) (hsort : t.Pairwise (· < ·)) (hs : 0 < o.sigma)
    (hne : t ≠ []) (idx : Fin k → Fin m) (F G : Fin m → ℝ) (hF : RatedInRange t o.sigma idx F)
    (hG : RatedInRange t o.sigma idx G) :
    ∃ P Q : (Fin k → Fin o.n) → ℝ, (∀ a, ordLikelihood o (ratedLabels idx a) F = .ok (P a)) ∧
      (∀ a, ordLikelihood o (ratedLabels idx a) G = .ok (Q a)) ∧ (∀ a, 0 < P a ∧ 0 < Q a) ∧ ∑ a, P a = 1 ∧
      ∑ a, P a * Real.log (Q a) ≤ ∑ a, P a * Real.log (P a) ∧
      (∑ a, P a * Real.log (Q a) = ∑ a, P a * Real.log (P a) ↔ ∀ i, G (idx i) = F (idx i)) := by
  have hpos : ∀ (H : Fin m → ℝ) (i : Fin k) (b : Fin o.n), 0 < ordProb t o.sigma (b + 1) (H (idx i)) := by
    intro H i b
    have := b.isLt
    have := ht.2
    exact ordProb_pos hsort hs (by omega) (by omega) _
  have hone : ∀ i, ∑ b : Fin o.n, ordProb t o.sigma (b + 1) (F (idx i)) = 1 := fun i => rated_one ht _
  have hlog : ∀ (H : Fin m → ℝ) (a : Fin k → Fin o.n), Real.log (∏ i, ordProb t o.sigma (a i + 1) (H (idx i))) =
      ∑ i, Real.log (ordProb t o.sigma (a i + 1) (H (idx i))) := fun H a =>
    Real.log_prod fun i _ => (hpos H i (a i)).ne'
  have key : ∀ H : Fin m → ℝ, ∑ a : Fin k → Fin o.n, (∏ i, ordProb t o.sigma (a i + 1) (F (idx i))) *
      Real.log (∏ i, ordProb t o.sigma (a i + 1) (H (idx i))) = ∑ i, ∑ b : Fin o.n, ordProb t o.sigma (b + 1) (F (idx i)) *
        Real.log (ordProb t o.sigma (b + 1) (H (idx i))) := by
    intro H
    simp_rw [hlog]
    exact expect_sum (fun i (b : Fin o.n) => ordProb t o.sigma (b + 1) (F (idx i))) hone
      fun i b => Real.log (ordProb t o.sigma (b + 1) (H (idx i)))
  have hg := gibbs_list (p := fun i (b : Fin o.n) => ordProb t o.sigma (b + 1) (F (idx i)))
    (q := fun i b => ordProb t o.sigma (b + 1) (G (idx i))) (hpos F) (hpos G) fun i => by
      simp only [rated_one ht]
  refine ⟨fun a => ∏ i, ordProb t o.sigma (a i + 1) (F (idx i)), fun a => ∏ i, ordProb t o.sigma (a i + 1) (G (idx i)),
    rated_likelihood ht hF, rated_likelihood ht hG,
    fun a => ⟨Finset.prod_pos fun i _ => hpos F i (a i), Finset.prod_pos fun i _ => hpos G i (a i)⟩,
    expect_total (fun i (b : Fin o.n) => ordProb t o.sigma (b + 1) (F (idx i))) hone, ?_⟩
  rw [key F, key G]
  refine ⟨hg.1, fun h i => ?_, fun h => ?_⟩
  · have hn : 0 < o.n := by have := ht.2; omega
    have h1 := congrFun (congrFun (hg.2 h) i) ⟨0, hn⟩
    obtain ⟨x, t', rfl⟩ := List.exists_cons_of_ne_nil hne
    simp only [ordProb, ordCum, zero_add, List.getElem?_cons_zero, sub_zero, Nat.sub_self] at h1
    have h2 := Phi_strictMono.injective h1
    field_simp at h2
    linarith
  · simp_rw [h]

/-- C125, ratings in (0, 1): `likelihood` is a density, and the expected `log_likelihood` of a rating drawn at `f` is largest
at `f`; it is smaller at any value with a different `mean_link`. -/
theorem C125_rating {sigma v eps : ℝ} (hv : 0 < v) (he : 0 < eps) (he' : eps < 1 / 2) (f g : ℝ) :
    let P := fun q => absLikelihood sigma v eps [(q, (0 : Fin 1))] (fun _ => f)
    let E := fun g : ℝ => ∫ q in (0 : ℝ)..1, P q * absLogLik sigma v eps [(q, (0 : Fin 1))] (fun _ => g)
    ∫ q in (0 : ℝ)..1, P q = 1 ∧ E g ≤ E f ∧ (E g = E f ↔ meanLink sigma eps g = meanLink sigma eps f) := by
  intro P E
  obtain ⟨ha, hb⟩ := shapes_pos (sigma := sigma) hv he he' f
  obtain ⟨ha', hb'⟩ := shapes_pos (sigma := sigma) hv he he' g
  have hE : ∀ g, E g = ∫ q, betaPDFReal (alphaBeta sigma v eps f).1 (alphaBeta sigma v eps f).2 q *
      Real.log (betaPDFReal (alphaBeta sigma v eps g).1 (alphaBeta sigma v eps g).2 q) := by
    intro g
    simp only [E, P]
    rw [unit_integral hv he he' f _ le_rfl zero_le_one le_rfl, setIntegral_unit_beta]
    refine integral_congr_ae (.of_forall fun q => ?_)
    simp [absLogLik, absPy, assignVec]
  refine ⟨?_, ?_, fun h => ?_, fun h => ?_⟩
  · have := unit_integral hv he he' f (sigma := sigma) (fun _ => 1) le_rfl zero_le_one le_rfl
    rw [setIntegral_unit_beta] at this
    simp only [mul_one] at this
    rw [this, integral_beta ha hb]
  · rw [hE, hE]
    exact beta_gibbs ha hb ha' hb'
  · by_contra hne
    rw [hE, hE] at h
    refine absurd h (beta_gibbs_ne ha hb ha' hb' ?_).ne
    simp only [alphaBeta]
    rcases lt_or_gt_of_ne hne with h1 | h1
    · have := mul_lt_mul_of_pos_left h1 hv
      exact .inr ⟨this, by linarith⟩
    · have := mul_lt_mul_of_pos_left h1 hv
      exact .inl ⟨this, by linarith⟩
  · rw [hE, hE, alphaBeta, alphaBeta, h]

/-- C125, ratings in (0, 1): unclipped values are identified. -/
theorem C125_rating_identified {sigma v eps : ℝ} (hs : 0 < sigma) (hv : 0 < v) (he : 0 < eps) (he' : eps < 1 / 2) (f g : ℝ)
    (hr : RatingsInRange sigma eps [((0 : ℝ), (0 : Fin 1))] fun _ => f)
    (hr' : RatingsInRange sigma eps [((0 : ℝ), (0 : Fin 1))] fun _ => g) (hne : g ≠ f) :
    ∫ q in (0 : ℝ)..1, absLikelihood sigma v eps [(q, (0 : Fin 1))] (fun _ => f) *
        absLogLik sigma v eps [(q, (0 : Fin 1))] (fun _ => g) <
      ∫ q in (0 : ℝ)..1, absLikelihood sigma v eps [(q, (0 : Fin 1))] (fun _ => f) *
        absLogLik sigma v eps [(q, (0 : Fin 1))] (fun _ => f) := by
  obtain ⟨-, h1, h2⟩ := C125_rating (sigma := sigma) hv he he' f g
  refine lt_of_le_of_ne h1 fun h => hne ?_
  have h3 := h2.1 h
  rw [meanLink_of_inR (inR_of_range hr _ (List.mem_singleton_self _)),
    meanLink_of_inR (inR_of_range hr' _ (List.mem_singleton_self _))] at h3
  have hi : isqrt2sig sigma ≠ 0 := by unfold isqrt2sig; positivity
  exact mul_right_cancel₀ hi (Phi_strictMono.injective h3)

/-- C125, ratings in (0, 1): at the true value the expected derivative is zero. -/
theorem C125_rating_gradient {sigma v eps : ℝ} (hv : 0 < v) (he : 0 < eps) (he' : eps < 1 / 2) (f : ℝ) :
    ∫ q in (0 : ℝ)..1, absLikelihood sigma v eps [(q, (0 : Fin 1))] (fun _ => f) * absDpy sigma v eps q f = 0 := by
  obtain ⟨ha, hb⟩ := shapes_pos (sigma := sigma) hv he he' f
  rw [unit_integral hv he he' f _ le_rfl zero_le_one le_rfl, setIntegral_unit_beta]
  simp only [absDpy, absTmp]
  generalize (alphaBeta sigma v eps f).1 = a at ha ⊢
  generalize (alphaBeta sigma v eps f).2 = b at hb ⊢
  generalize v * isqrt2sig sigma * stdNormPdf (f * isqrt2sig sigma) = c
  have e : ∀ q, betaPDFReal a b q * (c * (Real.log q - Real.log (1 - q) - digamma a + digamma b)) =
      c * (betaPDFReal a b q * Real.log q - betaPDFReal a b q * Real.log (1 - q) -
        (digamma a - digamma b) * betaPDFReal a b q) := fun q => by ring
  simp_rw [e]
  have i1 := beta_log_integrable ha hb
  have i2 := beta_log1_integrable ha hb
  have i3 := (integrable_beta ha hb).const_mul (digamma a - digamma b)
  have i12 : Integrable fun q => betaPDFReal a b q * Real.log q - betaPDFReal a b q * Real.log (1 - q) := i1.sub i2
  rw [integral_const_mul, integral_sub i12 i3, integral_sub i1 i2, integral_const_mul, integral_beta ha hb,
    beta_log_odds ha hb]
  ring

/-- Three items and the questions (0, 1), (0, 1), (1, 2): no values explain the answers better than the true ones. -/
example (G : Fin 3 → ℝ) (hG : QuestionsInRange 1 ![((0 : Fin 3), (1 : Fin 3)), (0, 1), (1, 2)] G) :
    let qs := ![((0 : Fin 3), (1 : Fin 3)), (0, 1), (1, 2)]
    let F : Fin 3 → ℝ := ![0, 1, 3]
    ∑ a, (prefLikelihood 1 (answerLabels qs a) F).prod * prefLogLik 1 (answerLabels qs a) G ≤
      ∑ a, (prefLikelihood 1 (answerLabels qs a) F).prod * prefLogLik 1 (answerLabels qs a) F := by
  have h2 : (1 : ℝ) ≤ Real.sqrt 2 := Real.one_le_sqrt.2 (by norm_num)
  refine (C125_pairs one_pos _ _ G ?_ hG).2.1
  intro i
  rw [mul_one, abs_div, abs_of_pos (by positivity : 0 < Real.sqrt 2), div_le_iff₀ (by positivity)]
  have h3 : ((![0, 1, 3] : Fin 3 → ℝ) 2 - 1) = 2 := by
    rw [show (![0, 1, 3] : Fin 3 → ℝ) 2 = 3 from rfl]
    norm_num
  fin_cases i <;> norm_num [h3] <;> nlinarith

/-- A rating of an item of value 1 under the default probit. -/
example (g : ℝ) : ∫ q in (0 : ℝ)..1, absLikelihood 1 80 1e-10 [(q, (0 : Fin 1))] (fun _ => 1) *
      absLogLik 1 80 1e-10 [(q, (0 : Fin 1))] (fun _ => g) ≤
    ∫ q in (0 : ℝ)..1, absLikelihood 1 80 1e-10 [(q, (0 : Fin 1))] (fun _ => 1) *
      absLogLik 1 80 1e-10 [(q, (0 : Fin 1))] (fun _ => 1) :=
  (C125_rating (by norm_num) (by norm_num) (by norm_num) 1 g).2.1

/-- Two items rated in three categories with thresholds -1 and 1. -/
example : ∃ P Q : (Fin 2 → Fin 3) → ℝ,
    (∀ a, ordLikelihood ⟨1, 3, [.neg, .fin (-1), .fin 1, .pos]⟩ (ratedLabels ![(0 : Fin 2), 1] a) ![0, 1] = .ok (P a)) ∧
    (∀ a, ordLikelihood ⟨1, 3, [.neg, .fin (-1), .fin 1, .pos]⟩ (ratedLabels ![(0 : Fin 2), 1] a) ![0, 2] = .ok (Q a)) ∧
    ∑ a, P a * Real.log (Q a) < ∑ a, P a * Real.log (P a) := by
  obtain ⟨P, Q, h1, h2, -, -, h3, h4⟩ := C125_ordinal (k := 2) (m := 2) ⟨1, 3, [.neg, .fin (-1), .fin 1, .pos]⟩ [-1, 1]
    ⟨rfl, rfl⟩ (by norm_num) one_pos (by simp) ![0, 1] ![0, 1] ![0, 2]
    (by intro i x hx; fin_cases i <;> simp at hx <;> rcases hx with rfl | rfl <;> norm_num)
    (by intro i x hx; fin_cases i <;> simp at hx <;> rcases hx with rfl | rfl <;> norm_num)
  refine ⟨P, Q, h1, h2, lt_of_le_of_ne h3 fun h => ?_⟩
  have := h4.1 h 1
  norm_num at this

end Lop.Props
