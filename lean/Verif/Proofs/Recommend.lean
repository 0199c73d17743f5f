import Verif.Proofs.UcbBayes
import Verif.Spec.Recommend
import Verif.Props.Select

/-! # Lemmas about the candidates recommended by a `GP` -/

namespace Lop

open Spec MeasureTheory ProbabilityTheory Matrix

variable {d n : Nat} {Ω : Type*} [mΩ : MeasurableSpace Ω] {μ : Measure Ω} [IsProbabilityMeasure μ]

/-- A condition on finitely many numbers which depends only on their order is measurable. -/
theorem order_measurable {A : Set (Fin n → ℝ)} (h : ∀ w w' : Fin n → ℝ, (∀ i j, w i < w j ↔ w' i < w' j) → w ∈ A → w' ∈ A) : MeasurableSet A := by
  classical
  have e : A = ⋃ R : {R : Fin n → Fin n → Bool // ∃ w ∈ A, ∀ i j, w i < w j ↔ R i j = true}, {w | ∀ i j, w i < w j ↔ R.1 i j = true} := by
    ext w
    simp only [Set.mem_iUnion, Set.mem_setOf_eq]
    constructor
    · intro hw
      exact ⟨⟨fun i j => decide (w i < w j), w, hw, fun i j => by simp⟩, fun i j => by simp⟩
    · rintro ⟨⟨R, w', hw', hR⟩, hw⟩
      exact h w' w (fun i j => (hR i j).trans (hw i j).symm) hw'
  rw [e]
  refine MeasurableSet.iUnion fun R => ?_
  have e2 : {w : Fin n → ℝ | ∀ i j, w i < w j ↔ R.1 i j = true} = ⋂ i, ⋂ j, {w | w i < w j ↔ R.1 i j = true} := by
    ext w
    simp
  rw [e2]
  refine MeasurableSet.iInter fun i => MeasurableSet.iInter fun j => ?_
  have hm : MeasurableSet {w : Fin n → ℝ | w i < w j} := measurableSet_lt (measurable_pi_apply i) (measurable_pi_apply j)
  by_cases hR : R.1 i j = true
  · simpa [hR] using hm
  · have : {w : Fin n → ℝ | w i < w j ↔ R.1 i j = true} = {w : Fin n → ℝ | w i < w j}ᶜ := by
      ext w
      simp [hR]
    rw [this]
    exact hm.compl

theorem argmaxFrom_order {w w' : Nat → ℝ} {n : Nat} (h : ∀ i j, i < n → j < n → (w i < w j ↔ w' i < w' j)) (l : List Nat) :
    (∀ j ∈ l, j < n) → ∀ (i best a : Nat), a < n → argmaxFrom (l.map w) i best (w a) = argmaxFrom (l.map w') i best (w' a) := by
  induction l with
  | nil => intro _ i best a _; rfl
  | cons j l ih =>
    intro hl i best a ha
    have hj : j < n := hl j (by simp)
    have hl' : ∀ j ∈ l, j < n := fun j hj => hl j (by simp [hj])
    simp only [List.map_cons, argmaxFrom, h a j ha hj]
    split
    · exact ih hl' _ _ j hj
    · exact ih hl' _ _ a ha

theorem npArgmax_order {w w' : Nat → ℝ} {n : Nat} (h : ∀ i j, i < n → j < n → (w i < w j ↔ w' i < w' j)) (l : List Nat)
    (hl : ∀ j ∈ l, j < n) : npArgmax (l.map w) = npArgmax (l.map w') := by
  cases l with
  | nil => rfl
  | cons a l =>
    simp only [List.map_cons, npArgmax]
    rw [argmaxFrom_order h l (fun j hj => hl j (by simp [hj])) 1 0 a (hl a (by simp))]

theorem gather_bad (a : List ℝ) (idx : List Nat) (h : ∃ i ∈ idx, a.length ≤ i) : gather a idx = .error .indexError := by
  induction idx with
  | nil => simp at h
  | cons i rest ih =>
    rcases lt_or_ge i a.length with hi | hi
    · have : ∃ i ∈ rest, a.length ≤ i := by
        obtain ⟨j, hj, hja⟩ := h
        rcases List.mem_cons.1 hj with rfl | hj
        · omega
        · exact ⟨j, hj, hja⟩
      simp only [gather, List.getElem?_eq_getElem hi, ih this]
    · simp only [gather, List.getElem?_eq_none hi]

/-- `BestLearner` sees only the order of the means. -/
theorem bestLearner_order (ordL : Nat → Finset Nat → List Nat) {w w' : Fin n → ℝ} (h : ∀ i j, w i < w j ↔ w' i < w' j) :
    bestLearner ordL (List.ofFn w) = bestLearner ordL (List.ofFn w') := by
  have hw : ∀ i j, i < n → j < n → ((List.ofFn w).getD i 0 < (List.ofFn w).getD j 0 ↔ (List.ofFn w').getD i 0 < (List.ofFn w').getD j 0) := by
    intro i j hi hj
    simpa [List.getD_eq_getElem?_getD, hi, hj] using h ⟨i, hi⟩ ⟨j, hj⟩
  have hg : ∀ t idx p, (bestLearner ordL (List.ofFn w)).greedy t idx p = (bestLearner ordL (List.ofFn w')).greedy t idx p := by
    intro t idx p
    simp only [bestLearner]
    by_cases hl : ∀ j ∈ ordL t idx, j < n
    · rw [gather_map _ _ (by simpa using hl), gather_map _ _ (by simpa using hl)]
      simp only [pickMax]
      rw [npArgmax_order hw _ hl]
    · push Not at hl
      rw [gather_bad _ _ (by simpa using hl), gather_bad _ _ (by simpa using hl)]
  have e : ∀ v : Fin n → ℝ, bestLearner ordL (List.ofFn v) = ⟨(bestLearner ordL (List.ofFn v)).greedy, none⟩ := fun _ => rfl
  rw [e w, e w']
  congr 1
  funext t idx p
  exact hg t idx p

theorem select_order (ordL : Nat → Finset Nat → List Nat) (ord : Finset Nat → List Nat) (q : Nat) {w w' : Fin n → ℝ} (h : ∀ i j, w i < w j ↔ w' i < w' j) :
    learnerSelect (bestLearner ordL (List.ofFn w)) false true none ord (List.ofFn w) q ∅ ∅ =
      learnerSelect (bestLearner ordL (List.ofFn w')) false true none ord (List.ofFn w') q ∅ ∅ := by
  unfold learnerSelect startSelection
  rw [bestLearner_order ordL h]
  simp

/-- `BestLearner` asked for `q` candidates. -/
theorem select_top {ordL : Nat → Finset Nat → List Nat} (hordL : ∀ t, Enumerates (ordL t)) {ord : Finset Nat → List Nat} (hord : Enumerates ord)
    {q : Nat} (hq : 0 < q) (hqn : q ≤ n) (w : Fin n → ℝ) :
    ∃ c : Fin q → Fin n, learnerSelect (bestLearner ordL (List.ofFn w)) false true none ord (List.ofFn w) q ∅ ∅ = .ok (List.ofFn fun j => (c j).val) ∧
      Function.Injective c ∧ ∀ i, i ∉ Set.range c → ∀ j, w i ≤ w (c j) := by
  obtain ⟨sel, h1, h2, h3⟩ := Props.C47_best ordL hordL false true hord (List.ofFn w) q ∅ ∅ (by simp) hq (by simpa using hqn)
  have hlen : sel.length = q := h2.length
  have hlt : ∀ i ∈ sel, i < n := fun i hi => by simpa using (h2.fresh i hi).1
  have hnd : sel.Nodup := h2.nodup
  obtain ⟨p, r, rfl, hp, -, -, -, -, hr, -⟩ := h3
  have hp0 : p = [] := List.eq_nil_iff_forall_not_mem.2 fun i hi => by simpa using hp i hi
  subst hp0
  simp only [List.nil_append] at *
  subst hlen
  refine ⟨fun j => ⟨r[j], hlt _ (List.getElem_mem _)⟩, ?_, ?_, ?_⟩
  · rw [h1]
    congr 1
    exact (List.ofFn_getElem (xs := r)).symm
  · intro a b hab
    simp only [Fin.mk.injEq] at hab
    exact Fin.ext ((List.Nodup.getElem_inj_iff hnd).1 hab)
  · intro i hi j
    have hin : i.val ∉ r := by
      intro hm
      obtain ⟨m, hm1, hm2⟩ := List.getElem_of_mem hm
      exact hi ⟨⟨m, hm1⟩, Fin.ext hm2⟩
    have := hr _ (List.getElem_mem j.2) i.val (by simp) hin (w ⟨r[j], hlt _ (List.getElem_mem _)⟩) (w i)
    exact this (by simp [hlt _ (List.getElem_mem j.2)]) (by simp)

/-- The largest `q` numbers have the largest sum. -/
theorem top_sum {q : Nat} {w : Fin n → ℝ} {c : Fin q → Fin n} (hc : Function.Injective c) (htop : ∀ i, i ∉ Set.range c → ∀ j, w i ≤ w (c j))
    {b : Fin q → Fin n} (hb : Function.Injective b) : ∑ j, w (b j) ≤ ∑ j, w (c j) := by
  classical
  set A : Finset (Fin n) := Finset.univ.image c
  set B : Finset (Fin n) := Finset.univ.image b
  have e1 : ∑ j, w (c j) = ∑ i ∈ A, w i := (Finset.sum_image fun x _ y _ h => hc h).symm
  have e2 : ∑ j, w (b j) = ∑ i ∈ B, w i := (Finset.sum_image fun x _ y _ h => hb h).symm
  have hcard : (B \ A).card = (A \ B).card := by
    have h1 : A.card = q := by rw [Finset.card_image_of_injective _ hc]; simp
    have h2 : B.card = q := by rw [Finset.card_image_of_injective _ hb]; simp
    have h3 := Finset.card_sdiff_add_card_inter A B
    have h4 := Finset.card_sdiff_add_card_inter B A
    rw [Finset.inter_comm] at h4
    omega
  have e3 := Finset.sum_inter_add_sum_sdiff A B w
  have e4 := Finset.sum_inter_add_sum_sdiff B A w
  rw [Finset.inter_comm] at e4
  rw [e1, e2, ← e3, ← e4]
  refine add_le_add le_rfl ?_
  rcases (A \ B).eq_empty_or_nonempty with h0 | ⟨a, ha⟩
  · rw [h0, Finset.card_empty, Finset.card_eq_zero] at hcard
    rw [h0, hcard]
  · obtain ⟨m, hm, hmin⟩ := Finset.exists_min_image (A \ B) w ⟨a, ha⟩
    have h5 : ∑ i ∈ B \ A, w i ≤ (B \ A).card • w m := by
      refine Finset.sum_le_card_nsmul _ _ _ fun i hi => ?_
      obtain ⟨j, -, hj⟩ := Finset.mem_image.1 (Finset.mem_sdiff.1 hm).1
      rw [← hj]
      refine htop i (fun ⟨x, hx⟩ => (Finset.mem_sdiff.1 hi).2 ?_) j
      exact Finset.mem_image.2 ⟨x, Finset.mem_univ _, hx⟩
    have h6 : (A \ B).card • w m ≤ ∑ i ∈ A \ B, w i := Finset.card_nsmul_le_sum _ _ _ hmin
    rw [hcard] at h5
    exact h5.trans h6

/-- The training data after the first `t` passes. -/
def firstRows (t : Nat) (st : GPState d) : GPState d := if t = 0 then none else st.map (List.take t)

theorem firstRows_data (mean : Pt d → ℝ) (z : Nat → Pt d) (s v : Nat → ℝ) {t T : Nat} (h : t ≤ T) :
    firstRows t (dataOf mean z s v T) = dataOf mean z s v t := by
  have hst : ∀ T, 0 < T → dataOf mean z s v T = some ((List.range T).map fun t => (z t, v t - mean (z t), s t)) := by
    intro T hT
    unfold dataOf
    rw [gpAdd_fold mean _ hT]
    simp [gpAdd]
  unfold firstRows
  split
  · rename_i h0
    subst h0
    rfl
  · rw [hst T (by omega), hst t (by omega)]
    simp only [Option.map_some, ← List.map_take, List.take_range, Nat.min_eq_left h]

theorem firstRows_event {mean : Pt d → ℝ} {s : Nat → ℝ} {t T : Nat} (h : t ≤ T) {E : Set (GPState d)} (hE : DataEvent mean s t E) :
    DataEvent mean s T {st | firstRows t st ∈ E} := fun z => by
  simpa only [Set.mem_setOf_eq, firstRows_data mean z s _ h] using hE z

/-- The value of the function at a point chosen from the training data has the same expectation as the mean predicted there. -/
theorem rule_mean {k : KExpr ℝ (Pt d)} (hok : AllLeaves (LeafOK (d = 1)) k) (hq : AllLeaves NoNoise k) {s : ℝ}
    (hs : 0 < s) {S : Finset (Pt d)} {pick : Nat → GPState d → Pt d} (hrule : IsRule (fun _ => 0) (fun _ => s) S pick)
    {F : Pt d → Ω → ℝ} (hFm : ∀ x, Measurable (F x)) (hF : IsRandomFunction μ k (fun _ => 0) F) {err : Nat → Ω → ℝ} (hem : ∀ t, Measurable (err t))
    (he : IsMeasurementError μ (fun _ => 0) F (fun _ => s) err)
    (hG : ∀ (T : Nat) (z : Nat → Pt d) (x : Pt d), HasGaussianLaw (fun ω => (fun _ : Fin 1 => F x ω, fun t : Fin T => F (z t) ω + err t ω)) μ)
    {st : Ω → Nat → GPState d} (hst : st = fun ω => activeRun (fun _ => 0) pick (fun y => F y ω) (fun _ => s) fun t => err t ω) (t : Nat)
    {ι : Type*} [Fintype ι] {y : GPState d → ι} (hy : ∀ c, DataEvent (fun _ => 0) (fun _ => s) t {st | y st = c}) (X : ι → Pt d) :
    Integrable (fun ω => F (X (y (st ω t))) ω) μ ∧ Integrable (fun ω => atMean (kcov k) (st ω t) (X (y (st ω t)))) μ ∧
      ∫ ω, F (X (y (st ω t))) ω ∂μ = ∫ ω, atMean (kcov k) (st ω t) (X (y (st ω t))) ∂μ := by
  set path : (Fin t → S) → Nat → Pt d := fun p j => if h : j < t then (p ⟨j, h⟩).1 else 0 with hpath
  set Y : (Fin t → S) → Ω → Nat → ℝ := fun p ω j => F (path p j) ω + err j ω with hY
  set E0 : (Fin t → S) × ι → Set Ω := fun p => {ω | (∀ j < t, pick j (st ω j) = path p.1 j) ∧ y (st ω t) = p.2} with hE0
  set Q : (Fin t → S) × ι → Set (Fin t → ℝ) :=
    fun p => {v | (∀ j < t, pick j (dataOf (fun _ => 0) (path p.1) (fun _ => s) (extend v) j) = path p.1 j) ∧
      y (dataOf (fun _ => 0) (path p.1) (fun _ => s) (extend v) t) = p.2} with hQ
  have hYm : ∀ p, Measurable fun ω (j : Fin t) => Y p ω j := fun p => measurable_pi_lambda _ fun t => (hFm _).add (hem _)
  have hext : ∀ p ω j, j ≤ t → dataOf (fun _ => 0) (path p) (fun _ => s) (extend fun i : Fin t => Y p ω i) j =
      dataOf (fun _ => 0) (path p) (fun _ => s) (Y p ω) j :=
    fun p ω j hj => dataOf_congr (fun _ => 0) _ (fun _ _ => rfl) fun i hi => extend_eq _ (by omega)
  have hfd : ∀ p ω, (∀ j < t, pick j (st ω j) = path p j) → st ω t = dataOf (fun _ => 0) (path p) (fun _ => s) (Y p ω) t := fun p ω h => by
    rw [hst]
    refine follows_data (fun _ => 0) pick (fun y => F y ω) (fun _ => s) (fun t => err t ω) (path p) fun j hj => ?_
    have := h j hj
    rw [hst] at this
    exact this
  have hEQ : ∀ p ω, ω ∈ E0 p ↔ (fun j : Fin t => Y p.1 ω j) ∈ Q p := by
    intro p ω
    simp only [hE0, hQ, Set.mem_setOf_eq]
    have h1 : (∀ j < t, pick j (st ω j) = path p.1 j) ↔
        ∀ j < t, pick j (dataOf (fun _ => 0) (path p.1) (fun _ => s) (extend fun i : Fin t => Y p.1 ω i) j) = path p.1 j := by
      simp only [hst]
      refine (follows_iff (fun _ => 0) pick (fun y => F y ω) (fun _ => s) (fun t => err t ω) (path p.1) t).trans ?_
      exact forall₂_congr fun j hj => by rw [hext p.1 ω j hj.le]
    rw [← h1]
    refine and_congr_right fun h => ?_
    rw [hfd p.1 ω h, hext p.1 ω t le_rfl]
  have hEd : ∀ p ω, ω ∈ E0 p → st ω t = dataOf (fun _ => 0) (path p.1) (fun _ => s) (Y p.1 ω) t := fun p ω h => hfd p.1 ω h.1
  have hQm : ∀ p, MeasurableSet (Q p) := by
    intro p
    have : Q p = (⋂ j : Fin t, {v | dataOf (fun _ => 0) (path p.1) (fun _ => s) (extend v) j ∈ {st | pick j st = path p.1 j}}) ∩
        {v | dataOf (fun _ => 0) (path p.1) (fun _ => s) (extend v) t ∈ {st | y st = p.2}} := by
      ext v
      simp only [hQ, Set.mem_setOf_eq, Set.mem_iInter, Set.mem_inter_iff]
      exact and_congr_left fun _ => ⟨fun h j => h j j.2, fun h j hj => h ⟨j, hj⟩⟩
    rw [this]
    exact (MeasurableSet.iInter fun j : Fin t => extend_measurable (hrule.event j _ (path p.1))).inter (extend_measurable (hy p.2 (path p.1)))
  have hE0e : ∀ p, E0 p = (fun ω (j : Fin t) => Y p.1 ω j) ⁻¹' Q p := fun p => Set.ext (hEQ p)
  have hE0m : ∀ p, MeasurableSet (E0 p) := fun p => by
    rw [hE0e]
    exact hYm p.1 (hQm p)
  have hcover : ∀ ω, ∃ p, ω ∈ E0 p := fun ω =>
    ⟨(fun j => ⟨pick j (st ω j), hrule.inside _ _⟩, y (st ω t)), fun j hj => by simp only [hpath, hj, dif_pos], rfl⟩
  have hdisj : Pairwise fun p q => Disjoint (E0 p) (E0 q) := by
    intro p q hpq
    rw [Set.disjoint_left]
    intro ω h1 h2
    refine hpq (Prod.ext (funext fun j => Subtype.ext ?_) (h1.2.symm.trans h2.2))
    have := (h1.1 j j.2).symm.trans (h2.1 j j.2)
    simp only [hpath, j.2, dif_pos] at this
    exact this
  set R : (Fin t → S) × ι → Ω → ℝ :=
    fun p ω => F (X p.2) ω - atMean (kcov k) (dataOf (fun _ => 0) (path p.1) (fun _ => s) (Y p.1 ω) t) (X p.2) with hR
  have hRl := fun p : (Fin t → S) × ι => residual_law hok hq hF (path p.1) hs he t (X p.2) (hG t (path p.1) (X p.2))
  have hRm : ∀ p, AEMeasurable (R p) μ := fun p => aemeasurable_of_map_neZero (by
    have := (hRl p).1
    simp only [hR, hY]
    rw [this]; infer_instance)
  have hRG : ∀ p, HasGaussianLaw (R p) μ := fun p => ⟨by
    have := (hRl p).1
    simp only [hR, hY]
    rw [this]; infer_instance⟩
  have hRi : ∀ p, Integrable (R p) μ := fun p => (hRG p).memLp_two.integrable (by norm_num)
  have hR0 : ∀ p, ∫ ω, R p ω ∂μ = 0 := fun p => by
    have h1 : ∫ r, id r ∂(μ.map (R p)) = ∫ ω, R p ω ∂μ := integral_map (hRm p) measurable_id.aestronglyMeasurable
    have h2 := (hRl p).1
    rw [← h1]
    simp only [hR, hY]
    rw [h2]
    exact integral_id_gaussianReal
  have hFi : ∀ y, Integrable (F y) μ := fun y => (hF.square y).integrable (by norm_num)
  have hF1 := parts_integral (μ := μ) hE0m hdisj hcover (h := fun ω => F (X (y (st ω t))) ω) (H := fun p => F (X p.2))
    (fun p ω h => by simp only [h.2]) fun p => hFi _
  have hM1 := parts_integral (μ := μ) hE0m hdisj hcover (h := fun ω => F (X (y (st ω t))) ω - atMean (kcov k) (st ω t) (X (y (st ω t)))) (H := R)
    (fun p ω h => by simp only [hR, h.2, ← hEd p ω h]) hRi
  have hM0 : ∫ ω, (F (X (y (st ω t))) ω - atMean (kcov k) (st ω t) (X (y (st ω t)))) ∂μ = 0 := by
    rw [hM1.2]
    refine Finset.sum_eq_zero fun p _ => ?_
    have := indep_indicator (φ := fun r => r) (hRl p).2 (hRm p) (hYm p.1) (hQm p) measurable_id
    rw [hE0e]
    refine this.trans ?_
    rw [show (∫ ω, F (X p.2) ω - atMean (kcov k) (dataOf (fun _ => 0) (path p.1) (fun _ => s) (fun t => F (path p.1 t) ω + err t ω) t) (X p.2) ∂μ) = 0 from hR0 p,
      mul_zero]
  have hA : Integrable (fun ω => atMean (kcov k) (st ω t) (X (y (st ω t)))) μ := by
    have := hF1.1.sub hM1.1
    refine this.congr (Filter.Eventually.of_forall fun ω => ?_)
    simp
  refine ⟨hF1.1, hA, ?_⟩
  rw [integral_sub hF1.1 hA] at hM0
  linarith

end Lop
