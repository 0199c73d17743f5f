import Verif.Proofs.UcbBayes

/-! # C136: expected regret of learning a Gaussian function from noisy measurements with `UCBLearner` -/

namespace Lop.Props

open Spec Matrix MeasureTheory ProbabilityTheory

variable {d n : Nat} {Ω : Type*} [mΩ : MeasurableSpace Ω] {μ : Measure Ω} [IsProbabilityMeasure μ]

/-- What a pass costs: bounded by how far the function pokes out of its confidence bands, the width of the band at the chosen point, and a term of mean zero. -/
private lemma pass_cost {k : KExpr ℝ (Pt d)} (hok : AllLeaves (LeafOK (d = 1)) k) (hq : AllLeaves NoNoise k) {alpha s v : ℝ} (hal : 0 < alpha)
    (hs : 0 < s) {S : Finset (Pt d)} (hv0 : 0 ≤ v) (hv : VarianceAtMost k S v) {turns : Nat → UcbTurn d} (hts : ∀ t, TurnOK S 1 (turns t))
    {F : Pt d → Ω → ℝ} (hFm : ∀ x, Measurable (F x)) (hF : IsRandomFunction μ k (fun _ => 0) F) {err : Nat → Ω → ℝ} (hem : ∀ t, Measurable (err t))
    (he : IsMeasurementError μ (fun _ => 0) F (fun _ => s) err)
    (hG : ∀ (T : Nat) (z : Nat → Pt d) (x : Pt d), HasGaussianLaw (fun ω => (fun _ : Fin 1 => F x ω, fun t : Fin T => F (z t) ω + err t ω)) μ)
    {st : Ω → Nat → GPState d} {x : Ω → Nat → Pt d}
    (hst : st = fun ω => activeRun (fun _ => 0) (fun t => ucbChoice (kcov k) alpha (turns t)) (fun y => F y ω) (fun _ => s) fun t => err t ω)
    (hx : x = fun ω t => ucbChoice (kcov k) alpha (turns t) (st ω t)) (t : Nat) :
    Integrable (fun ω => F (x ω t) ω) μ ∧ Integrable (fun ω => Real.sqrt (atVar (kcov k) (st ω t) (x ω t))) μ ∧
      ∫ ω, (bestOf (fun y => F y ω) (turns t).cands - F (x ω t) ω) ∂μ ≤
        S.card * (Real.sqrt v * (Real.exp (-(alpha ^ 2 / 2) - 1) / alpha)) + alpha * ∫ ω, Real.sqrt (atVar (kcov k) (st ω t) (x ω t)) ∂μ := by
  obtain ⟨hrule, -⟩ := C135_ucb k hok hq alpha (s := fun _ => s) (fun _ => hs) hts
  set pick : Nat → GPState d → Pt d := fun t => ucbChoice (kcov k) alpha (turns t) with hpick
  set path : (Fin (t + 1) → S) → Nat → Pt d := fun p j => if h : j < t + 1 then (p ⟨j, h⟩).1 else 0 with hpath
  set Y : (Fin (t + 1) → S) → Ω → Nat → ℝ := fun p ω j => F (path p j) ω + err j ω with hY
  set E0 : (Fin (t + 1) → S) → Set Ω := fun p => {ω | ∀ j < t + 1, pick j (st ω j) = path p j} with hE0
  set Q : (Fin (t + 1) → S) → Set (Fin t → ℝ) :=
    fun p => {v | ∀ j < t + 1, pick j (dataOf (fun _ => 0) (path p) (fun _ => s) (extend v) j) = path p j} with hQ
  have hYm : ∀ p, Measurable fun ω (j : Fin t) => Y p ω j := fun p => measurable_pi_lambda _ fun t => (hFm _).add (hem _)
  have hext : ∀ p ω j, j ≤ t → dataOf (fun _ => 0) (path p) (fun _ => s) (extend fun i : Fin t => Y p ω i) j =
      dataOf (fun _ => 0) (path p) (fun _ => s) (Y p ω) j :=
    fun p ω j hj => dataOf_congr (fun _ => 0) _ (fun _ _ => rfl) fun i hi => extend_eq _ (by omega)
  have hEQ : ∀ p ω, ω ∈ E0 p ↔ (fun j : Fin t => Y p ω j) ∈ Q p := by
    intro p ω
    simp only [hE0, hst, Set.mem_setOf_eq]
    refine (follows_iff (fun _ => 0) pick (fun y => F y ω) (fun _ => s) (fun t => err t ω) (path p) (t + 1)).trans ?_
    exact forall₂_congr fun j hj => by rw [hext p ω j (by omega)]
  have hEd : ∀ p ω, ω ∈ E0 p → st ω t = dataOf (fun _ => 0) (path p) (fun _ => s) (Y p ω) t := fun p ω h => by
    rw [hst]
    refine follows_data (fun _ => 0) pick (fun y => F y ω) (fun _ => s) (fun t => err t ω) (path p) fun j hj => ?_
    have := h j (by omega)
    rw [hst] at this
    exact this
  have hEx : ∀ p ω, ω ∈ E0 p → x ω t = path p t := fun p ω h => by rw [hx]; exact h t (by omega)
  have hQm : ∀ p, MeasurableSet (Q p) := by
    intro p
    have : Q p = ⋂ j : Fin (t + 1), {v | dataOf (fun _ => 0) (path p) (fun _ => s) (extend v) j ∈ {st | pick j st = path p j}} := by
      ext v
      simp only [hQ, Set.mem_setOf_eq, Set.mem_iInter]
      exact ⟨fun h j => h j j.2, fun h j hj => h ⟨j, hj⟩⟩
    rw [this]
    exact MeasurableSet.iInter fun j => extend_measurable (hrule.event j _ (path p))
  have hE0e : ∀ p, E0 p = (fun ω (j : Fin t) => Y p ω j) ⁻¹' Q p := fun p => Set.ext (hEQ p)
  have hE0m : ∀ p, MeasurableSet (E0 p) := fun p => by
    rw [hE0e]
    exact hYm p (hQm p)
  have hcover : ∀ ω, ∃ p, ω ∈ E0 p := fun ω =>
    ⟨fun j => ⟨pick j (st ω j), hrule.inside _ _⟩, fun j hj => by simp only [hpath, hj, dif_pos]⟩
  have hdisj : Pairwise fun p q => Disjoint (E0 p) (E0 q) := by
    intro p q hpq
    rw [Set.disjoint_left]
    intro ω h1 h2
    refine hpq (funext fun j => Subtype.ext ?_)
    have := (h1 j j.2).symm.trans (h2 j j.2)
    simp only [hpath, j.2, dif_pos] at this
    exact this
  have hprob : ∑ p, μ.real (E0 p) = 1 := by
    have h := parts_integral (μ := μ) hE0m hdisj hcover (h := fun _ => 1) (H := fun _ _ => 1) (fun _ _ _ => rfl) fun _ => integrable_const _
    have h2 := h.2
    simp only [integral_const, probReal_univ, smul_eq_mul, mul_one] at h2
    rw [h2]
    exact Finset.sum_congr rfl fun p _ => (integral_indicator_one (hE0m p)).symm
  have hpp := fun p => point_prediction hok hq (path p) hs t
  -- residuals along the paths
  set R : (Fin (t + 1) → S) → Pt d → Ω → ℝ :=
    fun p y ω => F y ω - atMean (kcov k) (dataOf (fun _ => 0) (path p) (fun _ => s) (Y p ω) t) y with hR
  have hRl : ∀ p y, μ.map (R p y) = gaussianReal 0 (atVar (kcov k) (dataOf (fun _ => 0) (path p) (fun _ => s) 0 t) y).toNNReal ∧
      IndepFun (R p y) (fun ω (j : Fin t) => Y p ω j) μ := fun p y => residual_law hok hq hF (path p) hs he t y (hG t (path p) y)
  have hRm : ∀ p y, AEMeasurable (R p y) μ := fun p y => aemeasurable_of_map_neZero (by rw [(hRl p y).1]; infer_instance)
  have hRG : ∀ p y, HasGaussianLaw (R p y) μ := fun p y => ⟨by rw [(hRl p y).1]; infer_instance⟩
  have hRi : ∀ p y, Integrable (R p y) μ := fun p y => (hRG p y).memLp_two.integrable (by norm_num)
  have hR0 : ∀ p y, ∫ ω, R p y ω ∂μ = 0 := fun p y => by
    have : ∫ r, id r ∂(μ.map (R p y)) = ∫ ω, R p y ω ∂μ := integral_map (hRm p y) measurable_id.aestronglyMeasurable
    rw [← this, (hRl p y).1]
    exact integral_id_gaussianReal
  have hFi : ∀ y, Integrable (F y) μ := fun y => (hF.square y).integrable (by norm_num)
  -- the parts of the cost
  set U : Pt d → Ω → ℝ := fun y ω => max (F y ω - atMean (kcov k) (st ω t) y - alpha * Real.sqrt (atVar (kcov k) (st ω t) y)) 0 with hU
  set W : Ω → ℝ := fun ω => Real.sqrt (atVar (kcov k) (st ω t) (x ω t)) with hW
  set M : Ω → ℝ := fun ω => atMean (kcov k) (st ω t) (x ω t) - F (x ω t) ω with hM
  have hvarp : ∀ p ω y, atVar (kcov k) (dataOf (fun _ => 0) (path p) (fun _ => s) (Y p ω) t) y =
      atVar (kcov k) (dataOf (fun _ => 0) (path p) (fun _ => s) 0 t) y := fun p ω y => (hpp p).2.2.1 _ _ _
  have hx1 := parts_integral (μ := μ) hE0m hdisj hcover (h := fun ω => F (x ω t) ω) (H := fun p => F (path p t))
    (fun p ω h => by simp only [hEx p ω h]) fun p => hFi _
  have hW1 := parts_integral (μ := μ) hE0m hdisj hcover (h := W)
    (H := fun p _ => Real.sqrt (atVar (kcov k) (dataOf (fun _ => 0) (path p) (fun _ => s) 0 t) (path p t)))
    (fun p ω h => by simp only [hW, hEd p ω h, hEx p ω h, hvarp]) fun p => integrable_const _
  have hM1 := parts_integral (μ := μ) hE0m hdisj hcover (h := M) (H := fun p ω => -R p (path p t) ω)
    (fun p ω h => by simp only [hM, hR, hEd p ω h, hEx p ω h]; ring) fun p => (hRi p _).neg
  have hM0 : ∫ ω, M ω ∂μ = 0 := by
    rw [hM1.2]
    refine Finset.sum_eq_zero fun p _ => ?_
    have := indep_indicator (φ := fun r => -r) (hRl p (path p t)).2 (hRm p _) (hYm p) (hQm p) measurable_neg
    rw [hE0e, this, integral_neg, hR0, neg_zero, mul_zero]
  have hU1 : ∀ y ∈ S, Integrable (U y) μ ∧ ∫ ω, U y ω ∂μ ≤ Real.sqrt v * (Real.exp (-(alpha ^ 2 / 2) - 1) / alpha) := by
    intro y hy
    have hvb := fun p => (hpp p).2.2.2 0 y v (hv y hy)
    have hex := fun p => excess_le (hvb p).1 (hRl p y).1 hal
    have h1 := parts_integral (μ := μ) hE0m hdisj hcover (h := U y)
      (H := fun p ω => max (R p y ω - alpha * Real.sqrt (atVar (kcov k) (dataOf (fun _ => 0) (path p) (fun _ => s) 0 t) y)) 0)
      (fun p ω h => by simp only [hU, hR, hEd p ω h, hvarp]) fun p => (hex p).1
    refine ⟨h1.1, ?_⟩
    rw [h1.2]
    have hc : 0 ≤ Real.exp (-(alpha ^ 2 / 2) - 1) / alpha := by positivity
    calc ∑ p, ∫ ω, (E0 p).indicator (fun ω => max (R p y ω - alpha * Real.sqrt (atVar (kcov k) (dataOf (fun _ => 0) (path p) (fun _ => s) 0 t) y)) 0) ω ∂μ
        ≤ ∑ p, μ.real (E0 p) * (Real.sqrt v * (Real.exp (-(alpha ^ 2 / 2) - 1) / alpha)) := by
          refine Finset.sum_le_sum fun p _ => ?_
          have := indep_indicator (φ := fun r => max (r - alpha * Real.sqrt (atVar (kcov k) (dataOf (fun _ => 0) (path p) (fun _ => s) 0 t) y)) 0)
            (hRl p y).2 (hRm p _) (hYm p) (hQm p) (by fun_prop)
          rw [hE0e, this]
          refine mul_le_mul_of_nonneg_left ((hex p).2.trans ?_) measureReal_nonneg
          exact mul_le_mul_of_nonneg_right (Real.sqrt_le_sqrt (hvb p).2.1) hc
      _ = Real.sqrt v * (Real.exp (-(alpha ^ 2 / 2) - 1) / alpha) := by rw [← Finset.sum_mul, hprob, one_mul]
  refine ⟨hx1.1, hW1.1, ?_⟩
  -- pass by pass
  have hpt : ∀ ω, bestOf (fun y => F y ω) (turns t).cands - F (x ω t) ω ≤ (∑ y ∈ S, U y ω) + alpha * W ω + M ω := by
    intro ω
    obtain ⟨p, hp⟩ := hcover ω
    have hn : 0 < (turns t).cands.length := (hts t).enough
    obtain ⟨q, hq1, hq2⟩ := (hpp p).1 (turns t).cands.get hn (Y p ω)
    rw [← hEd p ω hp] at hq1 hq2
    obtain ⟨_, i, -, -, h3, -, h5⟩ := choice_eq (alpha := alpha) (hts t).ordL hq1 hn
    have hxi : x ω t = (turns t).cands.get i := by rw [hx]; exact h3
    have hb : bestOf (fun y => F y ω) (turns t).cands ≤ (∑ y ∈ S, U y ω) + (q.mu i + alpha * Real.sqrt (q.sigma i)) := by
      refine bestOf_le (List.ne_nil_of_length_pos hn) fun y hy => ?_
      obtain ⟨j, rfl⟩ := List.get_of_mem hy
      have h6 : U ((turns t).cands.get j) ω ≤ ∑ y ∈ S, U y ω :=
        Finset.single_le_sum (f := fun y => U y ω) (fun y _ => le_max_right _ _) ((hts t).mem _ (List.get_mem _ _))
      have h7 : F ((turns t).cands.get j) ω - q.mu j - alpha * Real.sqrt (q.sigma j) ≤ U ((turns t).cands.get j) ω := by
        rw [(hq2 j).1, (hq2 j).2]
        exact le_max_left _ _
      have h8 := h5 j
      linarith
    have hMi : M ω = q.mu i - F (x ω t) ω := by simp only [hM]; rw [hxi, (hq2 i).1]
    have hWi : W ω = Real.sqrt (q.sigma i) := by simp only [hW]; rw [hxi, (hq2 i).2]
    rw [hMi, hWi]
    linarith
  have hUs : Integrable (fun ω => ∑ y ∈ S, U y ω) μ := integrable_finsetSum _ fun y hy => (hU1 y hy).1
  have hsum1 : Integrable (fun ω => (∑ y ∈ S, U y ω) + alpha * W ω) μ := hUs.add (hW1.1.const_mul _)
  have hbest : Integrable (fun ω => bestOf (fun y => F y ω) (turns t).cands) μ :=
    bestOf_integrable hFi _ (List.ne_nil_of_length_pos (hts t).enough)
  have h1 := integral_mono (hbest.sub hx1.1) (hsum1.add hM1.1) hpt
  refine h1.trans ?_
  have e1 : ∫ ω, ((fun ω => (∑ y ∈ S, U y ω) + alpha * W ω) + M) ω ∂μ = (∫ ω, ∑ y ∈ S, U y ω ∂μ) + alpha * ∫ ω, W ω ∂μ := by
    rw [integral_add' hsum1 hM1.1, hM0, add_zero, integral_add hUs (hW1.1.const_mul _), integral_const_mul]
  rw [e1, integral_finsetSum _ fun y hy => (hU1 y hy).1]
  refine add_le_add ?_ le_rfl
  rw [← nsmul_eq_mul]
  exact Finset.sum_le_card_nsmul _ _ _ fun y hy => (hU1 y hy).2

/-- C136: a Gaussian function with the kernel as covariance, measured with Gaussian errors of variance `s`, is maximised by the loop with `UCBLearner`.
The loop never raises, and the expected sum of the regrets of `T` passes is at most
`alpha sqrt(T |S| (v + s) (1 + log T)) + T |S| sqrt(v) exp(-alpha^2/2 - 1)/alpha`. -/
theorem C136_regret (k : KExpr ℝ (Pt d)) (hok : AllLeaves (LeafOK (d = 1)) k) (hq : AllLeaves NoNoise k) {alpha s v : ℝ} (hal : 0 < alpha)
    (hs : 0 < s) {S : Finset (Pt d)} (hv0 : 0 ≤ v) (hv : VarianceAtMost k S v) {turns : Nat → UcbTurn d} (hts : ∀ t, TurnOK S 1 (turns t))
    {F : Pt d → Ω → ℝ} (hFm : ∀ x, Measurable (F x)) (hF : IsRandomFunction μ k (fun _ => 0) F) {err : Nat → Ω → ℝ} (hem : ∀ t, Measurable (err t))
    (he : IsMeasurementError μ (fun _ => 0) F (fun _ => s) err)
    (hG : ∀ (T : Nat) (z : Nat → Pt d) (x : Pt d), HasGaussianLaw (fun ω => (fun _ : Fin 1 => F x ω, fun t : Fin T => F (z t) ω + err t ω)) μ) :
    ∃ (st : Ω → Nat → GPState d) (x : Ω → Nat → Pt d),
      (∀ ω t, noisyUcb (kcov k) alpha (fun y => F y ω) (fun _ => s) (fun t => err t ω) turns t = .ok (st ω t)) ∧
      (∀ ω t, ∃ i, ucbTurn (kcov k) alpha s (fun y => F y ω + err t ω) 1 (turns t) (st ω t) = .ok ([i], st ω (t + 1)) ∧
        (turns t).cands[i]? = some (x ω t)) ∧
      (∀ t, Integrable (fun ω => bestOf (fun y => F y ω) (turns t).cands - F (x ω t) ω) μ) ∧
      ∀ T : Nat, 0 ≤ ∫ ω, ∑ t ∈ Finset.range T, (bestOf (fun y => F y ω) (turns t).cands - F (x ω t) ω) ∂μ ∧
        ∫ ω, ∑ t ∈ Finset.range T, (bestOf (fun y => F y ω) (turns t).cands - F (x ω t) ω) ∂μ ≤
          alpha * Real.sqrt (T * (S.card * ((v + s) * (1 + Real.log T)))) +
            T * (S.card * (Real.sqrt v * (Real.exp (-(alpha ^ 2 / 2) - 1) / alpha))) := by
  obtain ⟨hrule, hloop⟩ := C135_ucb k hok hq alpha (s := fun _ => s) (fun _ => hs) hts
  set pick : Nat → GPState d → Pt d := fun t => ucbChoice (kcov k) alpha (turns t) with hpick
  set st : Ω → Nat → GPState d := fun ω => activeRun (fun _ => 0) pick (fun y => F y ω) (fun _ => s) fun t => err t ω with hst
  set x : Ω → Nat → Pt d := fun ω t => pick t (st ω t) with hx
  have hcost := fun t => pass_cost hok hq hal hs hv0 hv hts hFm hF hem he hG hst hx t
  have hFi : ∀ y, Integrable (F y) μ := fun y => (hF.square y).integrable (by norm_num)
  have hint : ∀ t, Integrable (fun ω => bestOf (fun y => F y ω) (turns t).cands - F (x ω t) ω) μ := fun t =>
    (bestOf_integrable hFi _ (List.ne_nil_of_length_pos (hts t).enough)).sub (hcost t).1
  have hturn : ∀ ω t, ∃ i, ucbTurn (kcov k) alpha s (fun y => F y ω + err t ω) 1 (turns t) (st ω t) = .ok ([i], st ω (t + 1)) ∧
      (turns t).cands[i]? = some (x ω t) := by
    intro ω t
    have hn : 0 < (turns t).cands.length := (hts t).enough
    have hdata : st ω t = dataOf (fun _ => 0) (x ω) (fun _ => s) (fun j => F (x ω j) ω + err j ω) t :=
      follows_data (fun _ => 0) pick (fun y => F y ω) (fun _ => s) (fun t => err t ω) (x ω) fun j _ => rfl
    obtain ⟨q, hq1, -⟩ := (point_prediction hok hq (x ω) hs t).1 (turns t).cands.get hn fun j => F (x ω j) ω + err j ω
    rw [← hdata] at hq1
    obtain ⟨_, i, -, -, h3, h4, -⟩ := choice_eq (alpha := alpha) (hts t).ordL hq1 hn
    refine ⟨i, ?_, ?_⟩
    · rw [h4, ← h3]
      rfl
    · rw [List.getElem?_eq_getElem i.2]
      exact congrArg some h3.symm
  have hmemx : ∀ ω t, x ω t ∈ (turns t).cands := fun ω t => by
    obtain ⟨i, -, h⟩ := hturn ω t
    exact List.mem_of_getElem? h
  refine ⟨st, x, fun ω t => hloop _ _ t, hturn, hint, fun T => ⟨?_, ?_⟩⟩
  · exact integral_nonneg fun ω => Finset.sum_nonneg fun t _ => sub_nonneg.2 (le_bestOf (f := fun y => F y ω) (hmemx ω t))
  · rw [integral_finsetSum _ fun t _ => hint t]
    set w : Nat → Ω → ℝ := fun t ω => Real.sqrt (atVar (kcov k) (st ω t) (x ω t)) with hw
    have h1 : ∑ t ∈ Finset.range T, ∫ ω, (bestOf (fun y => F y ω) (turns t).cands - F (x ω t) ω) ∂μ ≤
        ∑ t ∈ Finset.range T, (S.card * (Real.sqrt v * (Real.exp (-(alpha ^ 2 / 2) - 1) / alpha)) + alpha * ∫ ω, w t ω ∂μ) :=
      Finset.sum_le_sum fun t _ => (hcost t).2.2
    refine h1.trans ?_
    rw [Finset.sum_add_distrib, Finset.sum_const, Finset.card_range, nsmul_eq_mul, ← Finset.mul_sum, add_comm]
    refine add_le_add (mul_le_mul_of_nonneg_left ?_ hal.le) le_rfl
    rw [← integral_finsetSum _ fun t _ => (hcost t).2.1]
    have hpath : ∀ ω, ∑ t ∈ Finset.range T, w t ω ≤ Real.sqrt (T * (S.card * ((v + s) * (1 + Real.log T)))) := by
      intro ω
      have hdata : ∀ t, st ω t = dataOf (fun _ => 0) (x ω) (fun _ => s) (fun j => F (x ω j) ω + err j ω) t := fun t =>
        follows_data (fun _ => 0) pick (fun y => F y ω) (fun _ => s) (fun t => err t ω) (x ω) fun j _ => rfl
      have hb := fun t => (point_prediction hok hq (x ω) hs t).2.2.2 (fun j => F (x ω j) ω + err j ω) (x ω t) v (hv _ (hrule.inside _ _))
      refine width_sum (z := x ω) (S := S) (s := s) (w := fun j => F (x ω j) ω + err j ω) (fun t => hrule.inside _ _) (by linarith)
        (u := fun t => atVar (kcov k) (st ω t) (x ω t)) (fun t => ?_) (fun t => ?_) T
      · rw [hdata t]; exact (hb t).1
      · rw [hdata t]; exact (hb t).2.2
    have h2 := integral_mono (integrable_finsetSum _ fun t _ => (hcost t).2.1) (integrable_const (μ := μ) _) hpath
    refine h2.trans (le_of_eq ?_)
    simp

/-- C136, learning: for every tolerance there is an `alpha` with which the expected average regret falls below it, whatever candidates are offered. -/
theorem C136_learns (k : KExpr ℝ (Pt d)) (hok : AllLeaves (LeafOK (d = 1)) k) (hq : AllLeaves NoNoise k) {s v : ℝ}
    (hs : 0 < s) {S : Finset (Pt d)} (hv0 : 0 ≤ v) (hv : VarianceAtMost k S v)
    {F : Pt d → Ω → ℝ} (hFm : ∀ x, Measurable (F x)) (hF : IsRandomFunction μ k (fun _ => 0) F) {err : Nat → Ω → ℝ} (hem : ∀ t, Measurable (err t))
    (he : IsMeasurementError μ (fun _ => 0) F (fun _ => s) err)
    (hG : ∀ (T : Nat) (z : Nat → Pt d) (x : Pt d), HasGaussianLaw (fun ω => (fun _ : Fin 1 => F x ω, fun t : Fin T => F (z t) ω + err t ω)) μ)
    {eps : ℝ} (heps : 0 < eps) : ∃ alpha > 0, ∃ T0 : Nat, ∀ turns : Nat → UcbTurn d, (∀ t, TurnOK S 1 (turns t)) →
      ∀ (st : Ω → Nat → GPState d) (x : Ω → Nat → Pt d),
      (∀ ω t, noisyUcb (kcov k) alpha (fun y => F y ω) (fun _ => s) (fun t => err t ω) turns t = .ok (st ω t)) →
      (∀ ω t, ∃ i, ucbTurn (kcov k) alpha s (fun y => F y ω + err t ω) 1 (turns t) (st ω t) = .ok ([i], st ω (t + 1)) ∧
        (turns t).cands[i]? = some (x ω t)) →
      ∀ T ≥ T0, (∫ ω, ∑ t ∈ Finset.range T, (bestOf (fun y => F y ω) (turns t).cands - F (x ω t) ω) ∂μ) / T ≤ eps := by
  set c : ℝ := S.card * Real.sqrt v with hc
  have hc0 : 0 ≤ c := by positivity
  set alpha : ℝ := 2 * c / eps + 1 with hal
  have hal0 : 0 < alpha := by positivity
  have hlim : Filter.Tendsto (fun T : Nat => alpha * Real.sqrt (S.card * (v + s) * ((1 + Real.log T) / T))) Filter.atTop (nhds 0) := by
    have h1 : Filter.Tendsto (fun x : ℝ => (1 + Real.log x) / x) Filter.atTop (nhds 0) := by
      have h2 := Real.isLittleO_log_id_atTop.tendsto_div_nhds_zero
      have h3 : Filter.Tendsto (fun x : ℝ => x⁻¹) Filter.atTop (nhds 0) := tendsto_inv_atTop_zero
      have h4 := h3.add h2
      rw [add_zero] at h4
      refine h4.congr fun x => ?_
      simp only [id]
      rw [add_div, one_div]
    have h5 := h1.comp tendsto_natCast_atTop_atTop
    have h6 := ((h5.const_mul ((S.card : ℝ) * (v + s))).sqrt).const_mul alpha
    simpa using h6
  obtain ⟨T0, hT0⟩ := Filter.eventually_atTop.1 (hlim.eventually (gt_mem_nhds (half_pos heps)))
  refine ⟨alpha, hal0, max T0 1, fun turns hts st x hrun hturn T hT => ?_⟩
  have hTp : (0 : ℝ) < T := by
    have : 1 ≤ T := (le_max_right _ _).trans hT
    exact_mod_cast this
  obtain ⟨st', x', h1, h2, -, h3⟩ := C136_regret k hok hq hal0 hs hv0 hv hts hFm hF hem he hG
  have est : st' = st := by
    funext ω t
    exact Except.ok.inj ((h1 ω t).symm.trans (hrun ω t))
  subst est
  have ex : x' = x := by
    funext ω t
    obtain ⟨i, a1, a2⟩ := h2 ω t
    obtain ⟨j, b1, b2⟩ := hturn ω t
    have := a1.symm.trans b1
    simp only [Except.ok.injEq, Prod.mk.injEq, List.cons.injEq, and_true] at this
    rw [this] at a2
    exact Option.some.inj (a2.symm.trans b2)
  subst ex
  rw [div_le_iff₀ hTp]
  refine (h3 T).2.trans ?_
  have e1 : Real.sqrt (T * (S.card * ((v + s) * (1 + Real.log T)))) = T * Real.sqrt (S.card * (v + s) * ((1 + Real.log T) / T)) := by
    have : (T : ℝ) * (S.card * ((v + s) * (1 + Real.log T))) = (T : ℝ) ^ 2 * (S.card * (v + s) * ((1 + Real.log T) / T)) := by
      field_simp
    rw [this, Real.sqrt_mul (by positivity), Real.sqrt_sq hTp.le]
  have e2 := (hT0 T ((le_max_left _ _).trans hT)).le
  have e3 : (S.card : ℝ) * (Real.sqrt v * (Real.exp (-(alpha ^ 2 / 2) - 1) / alpha)) ≤ eps / 2 := by
    rw [← mul_assoc, ← hc, ← mul_div_assoc, div_le_iff₀ hal0]
    have h4 : Real.exp (-(alpha ^ 2 / 2) - 1) ≤ 1 := Real.exp_le_one_iff.2 (by nlinarith [sq_nonneg alpha])
    have h5 : eps / 2 * alpha = c + eps / 2 := by
      rw [hal]
      field_simp
    rw [h5]
    nlinarith
  rw [e1]
  nlinarith

/-- A random line, maximised over 1 and 2: the hypotheses hold, and 100 passes with `alpha = 2` cost on average what the theorem says. -/
example : ∃ (st : (Nat → ℝ) → Nat → GPState 1) (x : (Nat → ℝ) → Nat → Pt 1),
    (∀ ω t, noisyUcb (kcov (.leaf (.linear 1 0 0) : KExpr ℝ (Pt 1))) 2 (fun y => ω 0 * y 0) (fun _ => 1) (fun t => ω (t + 1))
      (fun _ => ⟨[![1], ![2]], fun _ => sortedList, sortedList⟩) t = .ok (st ω t)) ∧
    ∫ ω, ∑ t ∈ Finset.range 100, (bestOf (fun y : Pt 1 => ω 0 * y 0) [![1], ![2]] - ω 0 * x ω t 0) ∂gaussDraws ≤
      2 * Real.sqrt ((100 : Nat) * (({![1], ![2]} : Finset (Pt 1)).card * ((4 + 1) * (1 + Real.log (100 : Nat))))) +
        (100 : Nat) * (({![1], ![2]} : Finset (Pt 1)).card * (Real.sqrt 4 * (Real.exp (-(2 ^ 2 / 2) - 1) / 2))) := by
  obtain ⟨st, x, h1, -, -, h3⟩ := C136_regret (.leaf (.linear 1 0 0) : KExpr ℝ (Pt 1)) (by simp [AllLeaves, LeafOK])
    (by simp [AllLeaves, NoNoise, noiseOf]) (μ := gaussDraws) (alpha := 2) (s := 1) (v := 4) (S := {![1], ![2]}) (by norm_num) one_pos (by norm_num)
    (by
      intro y hy c hc
      simp only [KExpr.cov, KLeaf.cov] at hc
      cases hc
      simp only [Finset.mem_insert, Finset.mem_singleton] at hy
      rcases hy with rfl | rfl <;> norm_num)
    (turns := fun _ => ⟨[![1], ![2]], fun _ => sortedList, sortedList⟩)
    (fun _ => ⟨by simp, by simp, fun _ => sort_enumerates, sort_enumerates⟩) (fun x => by fun_prop) line_random (fun t => by fun_prop) line_error
    (fun T z y => line_gauss z T fun _ => y)
  exact ⟨st, x, h1, (h3 100).2⟩

end Lop.Props
