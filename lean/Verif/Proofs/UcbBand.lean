import Verif.Proofs.UcbBayes
import Verif.Proofs.Normal

/-! # Lemmas about the confidence bands of a `GP` -/

namespace Lop

open Spec MeasureTheory ProbabilityTheory Matrix

variable {d n : Nat} {Ω : Type*} [mΩ : MeasurableSpace Ω] {μ : Measure Ω} [IsProbabilityMeasure μ]

/-- How often a Gaussian variable is more than `a` standard deviations from its mean. -/
theorem gauss_outside {R : Ω → ℝ} {v : ℝ} (hv : 0 ≤ v) (hR : μ.map R = gaussianReal 0 v.toNNReal) (a : ℝ) :
    μ {ω | a * Real.sqrt v < |R ω|} ≤ ENNReal.ofReal (2 * (1 - Phi a)) := by
  have hRm : AEMeasurable R μ := aemeasurable_of_map_neZero (by rw [hR]; infer_instance)
  have hms : MeasurableSet {r : ℝ | a * Real.sqrt v < |r|} := measurableSet_lt measurable_const measurable_norm
  have h1 : μ {ω | a * Real.sqrt v < |R ω|} = gaussianReal 0 v.toNNReal {r | a * Real.sqrt v < |r|} := by
    rw [← hR, Measure.map_apply_of_aemeasurable hRm hms]
    rfl
  rw [h1]
  rcases hv.eq_or_lt with h0 | hpos
  · rw [← h0]
    simp
  · set σ := Real.sqrt v with hσ
    have hσp : 0 < σ := Real.sqrt_pos.2 hpos
    have hmap : gaussianReal 0 v.toNNReal = (gaussianReal 0 1).map (σ * ·) := by
      rw [gaussianReal_map_const_mul, mul_zero]
      congr 1
      apply NNReal.coe_injective
      simp [hσ, Real.sq_sqrt hv, hv]
    rw [hmap, Measure.map_apply (measurable_const_mul σ) hms]
    have hsub : (fun x => σ * x) ⁻¹' {r | a * σ < |r|} ⊆ Set.Ioi a ∪ Set.Iic (-a) := by
      intro x hx
      have hx' : a * σ < |σ * x| := hx
      rw [abs_mul, abs_of_pos hσp, mul_comm, mul_lt_mul_iff_right₀ hσp] at hx'
      rcases lt_abs.1 hx' with h | h
      · exact Or.inl h
      · exact Or.inr (by rw [Set.mem_Iic]; linarith)
    refine (measure_mono hsub).trans ((measure_union_le _ _).trans ?_)
    have e1 : gaussianReal 0 1 (Set.Iic (-a)) = ENNReal.ofReal (1 - Phi a) := by
      rw [← Phi_neg, Phi, ofReal_measureReal]
    have e2 : gaussianReal 0 1 (Set.Ioi a) = ENNReal.ofReal (1 - Phi a) := by
      have h2 : (gaussianReal 0 1).real (Set.Iic a)ᶜ = 1 - Phi a := by
        rw [measureReal_compl measurableSet_Iic, probReal_univ]
        rfl
      rw [← h2, ofReal_measureReal, Set.compl_Iic]
    have hnn : 0 ≤ 1 - Phi a := by linarith [Phi_lt_one a]
    rw [e1, e2, ← ENNReal.ofReal_add hnn hnn]
    exact ENNReal.ofReal_le_ofReal (by linarith)

/-- The tail of the normal distribution. -/
theorem Phi_tail {a : ℝ} (ha : 0 ≤ a) : 1 - Phi a ≤ Real.exp (-(a ^ 2 / 2)) := by
  have hmap : (gaussianReal 0 1).map id = gaussianReal 0 1 := Measure.map_id
  have hm := mgf_gaussianReal hmap a
  have hexp : Integrable (fun x : ℝ => Real.exp (a * id x)) (gaussianReal 0 1) := by
    rw [← mgf_pos_iff, hm]
    exact Real.exp_pos _
  have h := measure_ge_le_exp_mul_mgf (μ := gaussianReal 0 1) (X := id) a ha hexp
  rw [hm, ← Real.exp_add] at h
  have h2 : (gaussianReal 0 1).real (Set.Iic a)ᶜ = 1 - Phi a := by
    rw [measureReal_compl measurableSet_Iic, probReal_univ]
    rfl
  rw [← h2]
  refine (measureReal_mono (fun x hx => ?_)).trans (h.trans (le_of_eq ?_))
  · rw [Set.compl_Iic] at hx
    exact le_of_lt (Set.mem_Ioi.1 hx)
  · congr 1
    simp
    ring

/-- How often the function is outside its confidence band. -/
theorem band_prob {k : KExpr ℝ (Pt d)} (hok : AllLeaves (LeafOK (d = 1)) k) (hq : AllLeaves NoNoise k) {s : ℝ}
    (hs : 0 < s) {S : Finset (Pt d)} {pick : Nat → GPState d → Pt d} (hrule : IsRule (fun _ => 0) (fun _ => s) S pick)
    {F : Pt d → Ω → ℝ} (hFm : ∀ x, Measurable (F x)) (hF : IsRandomFunction μ k (fun _ => 0) F) {err : Nat → Ω → ℝ} (hem : ∀ t, Measurable (err t))
    (he : IsMeasurementError μ (fun _ => 0) F (fun _ => s) err)
    (hG : ∀ (T : Nat) (z : Nat → Pt d) (x : Pt d), HasGaussianLaw (fun ω => (fun _ : Fin 1 => F x ω, fun t : Fin T => F (z t) ω + err t ω)) μ)
    {st : Ω → Nat → GPState d} (hst : st = fun ω => activeRun (fun _ => 0) pick (fun y => F y ω) (fun _ => s) fun t => err t ω) (t : Nat)
    (x : Pt d) (a : ℝ) :
    μ {ω | a * Real.sqrt (atVar (kcov k) (st ω t) x) < |F x ω - atMean (kcov k) (st ω t) x|} ≤ ENNReal.ofReal (2 * (1 - Phi a)) := by
  set path : (Fin t → S) → Nat → Pt d := fun p j => if h : j < t then (p ⟨j, h⟩).1 else 0 with hpath
  set Y : (Fin t → S) → Ω → Nat → ℝ := fun p ω j => F (path p j) ω + err j ω with hY
  set E0 : (Fin t → S) → Set Ω := fun p => {ω | ∀ j < t, pick j (st ω j) = path p j} with hE0
  set Q : (Fin t → S) → Set (Fin t → ℝ) :=
    fun p => {v | ∀ j < t, pick j (dataOf (fun _ => 0) (path p) (fun _ => s) (extend v) j) = path p j} with hQ
  have hYm : ∀ p, Measurable fun ω (j : Fin t) => Y p ω j := fun p => measurable_pi_lambda _ fun t => (hFm _).add (hem _)
  have hext : ∀ p ω j, j ≤ t → dataOf (fun _ => 0) (path p) (fun _ => s) (extend fun i : Fin t => Y p ω i) j =
      dataOf (fun _ => 0) (path p) (fun _ => s) (Y p ω) j :=
    fun p ω j hj => dataOf_congr (fun _ => 0) _ (fun _ _ => rfl) fun i hi => extend_eq _ (by omega)
  have hEd : ∀ p ω, ω ∈ E0 p → st ω t = dataOf (fun _ => 0) (path p) (fun _ => s) (Y p ω) t := fun p ω h => by
    rw [hst]
    refine follows_data (fun _ => 0) pick (fun y => F y ω) (fun _ => s) (fun t => err t ω) (path p) fun j hj => ?_
    have := h j hj
    rw [hst] at this
    exact this
  have hEQ : ∀ p ω, ω ∈ E0 p ↔ (fun j : Fin t => Y p ω j) ∈ Q p := by
    intro p ω
    simp only [hE0, hst, Set.mem_setOf_eq]
    refine (follows_iff (fun _ => 0) pick (fun y => F y ω) (fun _ => s) (fun t => err t ω) (path p) t).trans ?_
    exact forall₂_congr fun j hj => by rw [hext p ω j hj.le]
  have hQm : ∀ p, MeasurableSet (Q p) := by
    intro p
    have : Q p = ⋂ j : Fin t, {v | dataOf (fun _ => 0) (path p) (fun _ => s) (extend v) j ∈ {st | pick j st = path p j}} := by
      ext v
      simp only [hQ, Set.mem_setOf_eq, Set.mem_iInter]
      exact ⟨fun h j => h j j.2, fun h j hj => h ⟨j, hj⟩⟩
    rw [this]
    exact MeasurableSet.iInter fun j : Fin t => extend_measurable (hrule.event j _ (path p))
  have hE0e : ∀ p, E0 p = (fun ω (j : Fin t) => Y p ω j) ⁻¹' Q p := fun p => Set.ext (hEQ p)
  have hE0m : ∀ p, MeasurableSet (E0 p) := fun p => by
    rw [hE0e]
    exact hYm p (hQm p)
  have hcover : ∀ ω, ∃ p, ω ∈ E0 p := fun ω =>
    ⟨fun j => ⟨pick j (st ω j), hrule.inside _ _⟩, fun j hj => by simp only [hpath, hj, dif_pos]⟩
  have hdisj : Pairwise fun p q => Disjoint (E0 p) (E0 q) := by
    intro p q hpq
    rw [Set.disjoint_left]
    intro ω h1 h2
    refine hpq (funext fun j => Subtype.ext ?_)
    have := (h1 j j.2).symm.trans (h2 j j.2)
    simp only [hpath, j.2, dif_pos] at this
    exact this
  rw [measure_sum_parts μ hE0m hdisj hcover]
  have hone : ∑ p, μ (E0 p) = 1 := by
    have h := measure_sum_parts μ hE0m hdisj hcover Set.univ
    simp only [Set.univ_inter, measure_univ] at h
    exact h.symm
  rw [← mul_one (ENNReal.ofReal (2 * (1 - Phi a))), ← hone, Finset.mul_sum]
  refine Finset.sum_le_sum fun p _ => ?_
  obtain ⟨hl, hi⟩ := residual_law hok hq hF (path p) hs he t x (hG t (path p) x)
  obtain ⟨c, hc⟩ := cov_returns k (fun _ : Fin 1 => x) (fun _ : Fin 1 => x) one_pos
  have hpp := point_prediction hok hq (path p) hs t
  have hv0 := (hpp.2.2.2 0 x (c 0 0) fun c' hc' => by rw [hc] at hc'; cases hc'; exact le_rfl).1
  set V := atVar (kcov k) (dataOf (fun _ => 0) (path p) (fun _ => s) 0 t) x with hV
  have hB : MeasurableSet {r : ℝ | a * Real.sqrt V < |r|} := measurableSet_lt measurable_const measurable_norm
  have h1 := hi.measure_inter_preimage_eq_mul _ _ hB (hQm p)
  have e : {ω | a * Real.sqrt (atVar (kcov k) (st ω t) x) < |F x ω - atMean (kcov k) (st ω t) x|} ∩ E0 p =
      (fun ω => F x ω - atMean (kcov k) (dataOf (fun _ => 0) (path p) (fun _ => s) (fun t => F (path p t) ω + err t ω) t) x) ⁻¹'
        {r | a * Real.sqrt V < |r|} ∩ (fun ω (t : Fin t) => F (path p t) ω + err t ω) ⁻¹' Q p := by
    have e1 : (fun ω (t : Fin t) => F (path p t) ω + err t ω) ⁻¹' Q p = E0 p := (hE0e p).symm
    rw [e1]
    ext ω
    refine and_congr_left fun hω => ?_
    simp only [Set.mem_setOf_eq, Set.mem_preimage]
    rw [hEd p ω hω, hpp.2.2.1 _ 0 x]
  rw [e, h1, hE0e p]
  exact mul_le_mul_left (gauss_outside hv0 hl a) _

/-- All bands at once. -/
theorem bands_prob {k : KExpr ℝ (Pt d)} (hok : AllLeaves (LeafOK (d = 1)) k) (hq : AllLeaves NoNoise k) {s : ℝ}
    (hs : 0 < s) {S : Finset (Pt d)} {pick : Nat → GPState d → Pt d} (hrule : IsRule (fun _ => 0) (fun _ => s) S pick)
    {F : Pt d → Ω → ℝ} (hFm : ∀ x, Measurable (F x)) (hF : IsRandomFunction μ k (fun _ => 0) F) {err : Nat → Ω → ℝ} (hem : ∀ t, Measurable (err t))
    (he : IsMeasurementError μ (fun _ => 0) F (fun _ => s) err)
    (hG : ∀ (T : Nat) (z : Nat → Pt d) (x : Pt d), HasGaussianLaw (fun ω => (fun _ : Fin 1 => F x ω, fun t : Fin T => F (z t) ω + err t ω)) μ)
    {st : Ω → Nat → GPState d} (hst : st = fun ω => activeRun (fun _ => 0) pick (fun y => F y ω) (fun _ => s) fun t => err t ω) (T : Nat)
    {ι : Type*} [Fintype ι] (X : ι → Pt d) (a : ℝ) {A : Set Ω}
    (hA : {ω | ∀ t < T, ∀ i, |F (X i) ω - atMean (kcov k) (st ω t) (X i)| ≤ a * Real.sqrt (atVar (kcov k) (st ω t) (X i))} ⊆ A) :
    ENNReal.ofReal (1 - T * (Fintype.card ι * (2 * (1 - Phi a)))) ≤ μ A := by
  set B : Nat → ι → Set Ω := fun t i =>
    {ω | a * Real.sqrt (atVar (kcov k) (st ω t) (X i)) < |F (X i) ω - atMean (kcov k) (st ω t) (X i)|} with hB
  have hnn : 0 ≤ 2 * (1 - Phi a) := by linarith [Phi_lt_one a]
  have hbad : μ (⋃ t ∈ Finset.range T, ⋃ i ∈ Finset.univ, B t i) ≤ ENNReal.ofReal (T * (Fintype.card ι * (2 * (1 - Phi a)))) := by
    refine (measure_biUnion_finset_le _ _).trans ?_
    have h1 : ∀ t ∈ Finset.range T, μ (⋃ i ∈ Finset.univ, B t i) ≤ Fintype.card ι * ENNReal.ofReal (2 * (1 - Phi a)) := fun t _ => by
      refine (measure_biUnion_finset_le _ _).trans ?_
      refine (Finset.sum_le_sum fun i _ => band_prob hok hq hs hrule hFm hF hem he hG hst t (X i) a).trans ?_
      simp
    refine (Finset.sum_le_sum h1).trans (le_of_eq ?_)
    rw [Finset.sum_const, Finset.card_range, nsmul_eq_mul, ENNReal.ofReal_mul (Nat.cast_nonneg T),
      ENNReal.ofReal_mul (Nat.cast_nonneg (Fintype.card ι)), ENNReal.ofReal_natCast, ENNReal.ofReal_natCast]
  have hcov : Set.univ ⊆ A ∪ ⋃ t ∈ Finset.range T, ⋃ i ∈ Finset.univ, B t i := by
    intro ω _
    by_cases h : ∀ t < T, ∀ i, |F (X i) ω - atMean (kcov k) (st ω t) (X i)| ≤ a * Real.sqrt (atVar (kcov k) (st ω t) (X i))
    · exact Or.inl (hA h)
    · push Not at h
      obtain ⟨t, ht, i, hi⟩ := h
      exact Or.inr (Set.mem_biUnion (Finset.mem_coe.2 (Finset.mem_range.2 ht)) (Set.mem_biUnion (Finset.mem_coe.2 (Finset.mem_univ i)) hi))
  have h1 : (1 : ENNReal) ≤ μ A + ENNReal.ofReal (T * (Fintype.card ι * (2 * (1 - Phi a)))) := by
    rw [← measure_univ (μ := μ)]
    exact (measure_mono hcov).trans ((measure_union_le _ _).trans (by gcongr))
  rw [ENNReal.ofReal_sub _ (by positivity), ENNReal.ofReal_one]
  exact tsub_le_iff_right.2 h1

end Lop
