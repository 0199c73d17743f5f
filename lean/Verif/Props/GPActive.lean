import Verif.Proofs.GPActive
import Verif.Props.GPPosterior
import Verif.Proofs.UcbActive

/-! # C135: the posterior of `GP` stays right when the measured points are chosen by looking at the data -/

namespace Lop.Props

open Spec Matrix MeasureTheory ProbabilityTheory

variable {d n : Nat} {Ω : Type*} [mΩ : MeasurableSpace Ω] {μ : Measure Ω} [IsProbabilityMeasure μ]

private lemma fixed_design (k : KExpr ℝ (Pt d)) (hok : AllLeaves (LeafOK (d = 1)) k) (hq : AllLeaves NoNoise k) {mean : Pt d → ℝ}
    {F : Pt d → Ω → ℝ} (hF : IsRandomFunction μ k mean F) (z : Nat → Pt d) {s : Nat → ℝ} (hs : ∀ t, 0 < s t) {err : Nat → Ω → ℝ}
    (he : IsMeasurementError μ mean F s err) {T : Nat} (hT : 0 < T) (X : Fin n → Pt d) (hn : 0 < n)
    (hG : HasGaussianLaw (fun ω => (fun i => F (X i) ω, fun t : Fin T => F (z t) ω + err t ω)) μ) :
    ∃ (pred : Ω → GPPred n) (C : Matrix (Fin n) (Fin n) ℝ),
      (∀ ω, gpRegress (kcov k) mean (dataOf mean z s (fun t => F (z t) ω + err t ω) T) X = .ok (pred ω)) ∧
      (∀ ω, (pred ω).cov = C ∧ ∀ i, (pred ω).sigma i = C i i) ∧
      ∀ c : Fin n → ℝ, (0 < c ⬝ᵥ C *ᵥ c → ∀ (a : ℝ) (S : Set (Fin T → ℝ)), MeasurableSet S →
          μ {ω | (c ⬝ᵥ fun i => F (X i) ω) ≤ c ⬝ᵥ (pred ω).mu + a * Real.sqrt (c ⬝ᵥ C *ᵥ c) ∧ (fun t : Fin T => F (z t) ω + err t ω) ∈ S} =
            gaussianReal 0 1 (Set.Iic a) * μ {ω | (fun t : Fin T => F (z t) ω + err t ω) ∈ S}) ∧
        (c ⬝ᵥ C *ᵥ c ≤ 0 → ∀ᵐ ω ∂μ, (c ⬝ᵥ fun i => F (X i) ω) = c ⬝ᵥ (pred ω).mu) := by
  obtain ⟨pred, hp, hGR, hind⟩ := C134_posterior k hok hq hF z hs he hT X hn hG
  obtain ⟨pred', hp', hm, C, hC, hCi⟩ := C134_covariance k hok hq hF z hs he hT X hn
  have hpp : pred' = pred := by
    funext ω
    exact Except.ok.inj ((hp' ω).symm.trans (hp ω))
  subst hpp
  refine ⟨pred', C, hp, hC, fun c => ?_⟩
  set R : Ω → ℝ := fun ω => c ⬝ᵥ fun i => F (X i) ω - (pred' ω).mu i with hR
  have hRe : ∀ ω, R ω = (c ⬝ᵥ fun i => F (X i) ω) - c ⬝ᵥ (pred' ω).mu := fun ω => by
    simp only [hR, dotProduct, mul_sub, Finset.sum_sub_distrib]
  have hlin : Measurable fun v : Fin n → ℝ => c ⬝ᵥ v := by
    simp only [dotProduct]
    fun_prop
  have hRG : HasGaussianLaw R μ := by
    have := hGR.map_fun (LinearMap.toContinuousLinearMap (dotProductBilin ℝ ℝ c))
    exact this
  have hR0 : ∫ ω, R ω ∂μ = 0 := by
    simp only [hR, dotProduct]
    rw [integral_finsetSum _ fun i _ => (hm i).1.const_mul _]
    exact Finset.sum_eq_zero fun i _ => by rw [integral_const_mul, (hm i).2, mul_zero]
  have hR2 : ∫ ω, R ω ^ 2 ∂μ = c ⬝ᵥ C *ᵥ c := by
    have e : ∀ ω, R ω ^ 2 = ∑ i, ∑ j, (c i * c j) * ((F (X i) ω - (pred' ω).mu i) * (F (X j) ω - (pred' ω).mu j)) := by
      intro ω
      simp only [hR, dotProduct, sq, Finset.sum_mul_sum]
      exact Finset.sum_congr rfl fun i _ => Finset.sum_congr rfl fun j _ => by ring
    simp only [e]
    rw [integral_finsetSum _ fun i _ => integrable_finsetSum _ fun j _ => (hCi i j).1.const_mul _]
    simp only [dotProduct, mulVec, Finset.mul_sum]
    refine Finset.sum_congr rfl fun i _ => ?_
    rw [integral_finsetSum _ fun j _ => (hCi i j).1.const_mul _]
    exact Finset.sum_congr rfl fun j _ => by rw [integral_const_mul, (hCi i j).2]; ring
  refine ⟨fun hv a S hS => ?_, fun hv => ?_⟩
  · have hRv : Var[R; μ] = c ⬝ᵥ C *ᵥ c := by
      rw [variance_eq_integral hRG.aemeasurable, hR0]
      simp only [sub_zero]
      exact hR2
    have hmap : μ.map R = gaussianReal 0 (c ⬝ᵥ C *ᵥ c).toNNReal := by
      rw [hRG.map_eq_gaussianReal, hRv, hR0]
    have hindR : IndepFun R (fun ω (t : Fin T) => F (z t) ω + err t ω) μ := hind.comp (φ := fun v => c ⬝ᵥ v) (ψ := id) hlin measurable_id
    have h1 := hindR.measure_inter_preimage_eq_mul (Set.Iic (a * Real.sqrt (c ⬝ᵥ C *ᵥ c))) S measurableSet_Iic hS
    have hset : {ω | (c ⬝ᵥ fun i => F (X i) ω) ≤ c ⬝ᵥ (pred' ω).mu + a * Real.sqrt (c ⬝ᵥ C *ᵥ c) ∧
        (fun t : Fin T => F (z t) ω + err t ω) ∈ S} =
        R ⁻¹' Set.Iic (a * Real.sqrt (c ⬝ᵥ C *ᵥ c)) ∩ (fun ω (t : Fin T) => F (z t) ω + err t ω) ⁻¹' S := by
      ext ω
      simp only [Set.mem_setOf_eq, Set.mem_inter_iff, Set.mem_preimage, Set.mem_Iic, hRe]
      exact and_congr_left' (by rw [sub_le_iff_le_add, add_comm])
    have hPhi : μ (R ⁻¹' Set.Iic (a * Real.sqrt (c ⬝ᵥ C *ᵥ c))) = gaussianReal 0 1 (Set.Iic a) := by
      have e : μ (R ⁻¹' Set.Iic (a * Real.sqrt (c ⬝ᵥ C *ᵥ c))) = μ.map R (Set.Iic (a * Real.sqrt (c ⬝ᵥ C *ᵥ c))) := by
        rw [Measure.map_apply_of_aemeasurable hRG.aemeasurable measurableSet_Iic]
      have hsc : gaussianReal 0 (c ⬝ᵥ C *ᵥ c).toNNReal = (gaussianReal 0 1).map fun x => Real.sqrt (c ⬝ᵥ C *ᵥ c) * x := by
        rw [gaussianReal_map_const_mul]
        congr 1
        · simp
        · ext
          simp [Real.sq_sqrt hv.le, hv.le]
      rw [e, hmap, hsc, Measure.map_apply (by fun_prop) measurableSet_Iic]
      congr 1
      ext x
      simp only [Set.mem_preimage, Set.mem_Iic]
      rw [mul_comm a]
      exact mul_le_mul_iff_right₀ (Real.sqrt_pos.2 hv)
    rw [hset, h1, hPhi]
    rfl
  · have h0 : ∫ ω, R ω ^ 2 ∂μ = 0 := le_antisymm (by rw [hR2]; exact hv) (integral_nonneg fun ω => sq_nonneg _)
    rw [integral_eq_zero_iff_of_nonneg (fun ω => sq_nonneg _) hRG.memLp_two.integrable_sq] at h0
    filter_upwards [h0] with ω hω
    have : R ω = 0 := by simpa using hω
    rw [hRe] at this
    linarith

/-- C135: a function with the kernel as covariance is learned actively: every pass chooses a point from a finite set by any rule that looks at the
training data, and measures there. If function and measurement errors are jointly Gaussian, the means and covariances returned
for the collected data are those of the conditional distribution given these data: for every combination `c` of the predicted values, and within
every event about the data, the combination lies below `c·mean + a sqrt(c·cov c)` with conditional probability `Φ(a)` where `c·cov c` is
positive, and equals `c·mean` almost surely where it is not. -/
theorem C135_posterior (k : KExpr ℝ (Pt d)) (hok : AllLeaves (LeafOK (d = 1)) k) (hq : AllLeaves NoNoise k) {mean : Pt d → ℝ}
    {F : Pt d → Ω → ℝ} (hFm : ∀ x, Measurable (F x)) (hF : IsRandomFunction μ k mean F) {s : Nat → ℝ} (hs : ∀ t, 0 < s t)
    {err : Nat → Ω → ℝ} (hem : ∀ t, Measurable (err t)) (he : IsMeasurementError μ mean F s err) {S : Finset (Pt d)}
    {pick : Nat → GPState d → Pt d} (hpick : IsRule mean s S pick) {T : Nat} (hT : 0 < T) (X : Fin n → Pt d) (hn : 0 < n)
    (hG : ∀ z : Nat → Pt d, HasGaussianLaw (fun ω => (fun i => F (X i) ω, fun t : Fin T => F (z t) ω + err t ω)) μ) :
    ∃ pred : Ω → GPPred n, (∀ ω, gpRegress (kcov k) mean (activeRun mean pick (fun x => F x ω) s (fun t => err t ω) T) X = .ok (pred ω)) ∧
      (∀ ω i, (pred ω).sigma i = (pred ω).cov i i) ∧
      ∀ c : Fin n → ℝ, (∀ (a : ℝ) (E : Set (GPState d)), DataEvent mean s T E →
          μ.real {ω | (0 < c ⬝ᵥ (pred ω).cov *ᵥ c ∧ activeRun mean pick (fun x => F x ω) s (fun t => err t ω) T ∈ E) ∧
              (c ⬝ᵥ fun i => F (X i) ω) ≤ c ⬝ᵥ (pred ω).mu + a * Real.sqrt (c ⬝ᵥ (pred ω).cov *ᵥ c)} =
            Phi a * μ.real {ω | 0 < c ⬝ᵥ (pred ω).cov *ᵥ c ∧ activeRun mean pick (fun x => F x ω) s (fun t => err t ω) T ∈ E}) ∧
        ∀ᵐ ω ∂μ, c ⬝ᵥ (pred ω).cov *ᵥ c ≤ 0 → (c ⬝ᵥ fun i => F (X i) ω) = c ⬝ᵥ (pred ω).mu := by
  -- the paths
  set path : (Fin T → S) → Nat → Pt d := fun p t => if h : t < T then (p ⟨t, h⟩).1 else 0 with hpath
  set run : Ω → Nat → GPState d := fun ω => activeRun mean pick (fun x => F x ω) s (fun t => err t ω) with hrun
  set Y : (Fin T → S) → Ω → Nat → ℝ := fun p ω t => F (path p t) ω + err t ω with hY
  set E0 : (Fin T → S) → Set Ω := fun p => {ω | ∀ t < T, pick t (run ω t) = path p t} with hE0
  set Q : (Fin T → S) → Set (Fin T → ℝ) := fun p => {v | ∀ t < T, pick t (dataOf mean (path p) s (extend v) t) = path p t} with hQ
  have hYm : ∀ p, Measurable fun ω (t : Fin T) => Y p ω t := fun p => measurable_pi_lambda _ fun t => (hFm _).add (hem _)
  have hext : ∀ p ω t, t ≤ T → dataOf mean (path p) s (extend fun t : Fin T => Y p ω t) t = dataOf mean (path p) s (Y p ω) t :=
    fun p ω t ht => dataOf_congr mean s (fun _ _ => rfl) fun j hj => extend_eq _ (by omega)
  have hEQ : ∀ p ω, ω ∈ E0 p ↔ (fun t : Fin T => Y p ω t) ∈ Q p := by
    intro p ω
    refine (follows_iff mean pick (fun x => F x ω) s (fun t => err t ω) (path p) T).trans ?_
    exact forall₂_congr fun t ht => by rw [hext p ω t ht.le]
  have hEd : ∀ p ω, ω ∈ E0 p → run ω T = dataOf mean (path p) s (Y p ω) T := fun p ω h =>
    follows_data mean pick (fun x => F x ω) s (fun t => err t ω) (path p) h
  have hev : ∀ p t (A : Set (GPState d)), DataEvent mean s t A → MeasurableSet {v : Fin T → ℝ | dataOf mean (path p) s (extend v) t ∈ A} :=
    fun p t A hA => extend_measurable (hA (path p))
  have hQm : ∀ p, MeasurableSet (Q p) := by
    intro p
    have : Q p = ⋂ t : Fin T, {v | dataOf mean (path p) s (extend v) t ∈ {st | pick t st = path p t}} := by
      ext v
      simp only [hQ, Set.mem_setOf_eq, Set.mem_iInter]
      exact ⟨fun h t => h t t.2, fun h t ht => h ⟨t, ht⟩⟩
    rw [this]
    exact MeasurableSet.iInter fun t => hev p t _ (hpick.event t _)
  have hE0m : ∀ p, MeasurableSet (E0 p) := fun p => by
    rw [show E0 p = (fun ω (t : Fin T) => Y p ω t) ⁻¹' Q p from Set.ext (hEQ p)]
    exact hYm p (hQm p)
  have hcover : ∀ ω, ∃ p, ω ∈ E0 p := fun ω =>
    ⟨fun t => ⟨pick t (run ω t), hpick.inside _ _⟩, fun t ht => by simp only [hpath, ht, dif_pos]⟩
  have hdisj : Pairwise fun p q => Disjoint (E0 p) (E0 q) := by
    intro p q hpq
    rw [Set.disjoint_left]
    intro ω h1 h2
    refine hpq (funext fun t => Subtype.ext ?_)
    have := (h1 t t.2).symm.trans (h2 t t.2)
    simpa [hpath] using this
  -- predictions along the paths
  choose fpred C hfp hC hfix using fun p : Fin T → S => fixed_design k hok hq hF (path p) hs he hT X hn (hG (path p))
  have hex : ∀ ω, ∃ q, gpRegress (kcov k) mean (run ω T) X = .ok q := fun ω => by
    obtain ⟨p, hp⟩ := hcover ω
    exact ⟨_, by rw [hEd p ω hp]; exact hfp p ω⟩
  choose pred hpred using hex
  have hon : ∀ p ω, ω ∈ E0 p → pred ω = fpred p ω := fun p ω h => by
    have h1 := hpred ω
    rw [hEd p ω h] at h1
    exact Except.ok.inj (h1.symm.trans (hfp p ω))
  refine ⟨pred, hpred, fun ω i => ?_, fun c => ⟨fun a E hE => ?_, ?_⟩⟩
  · obtain ⟨p, hp⟩ := hcover ω
    rw [hon p ω hp, (hC p ω).1, (hC p ω).2]
  · have key : ∀ p, μ ({ω | (0 < c ⬝ᵥ (pred ω).cov *ᵥ c ∧ run ω T ∈ E) ∧
          (c ⬝ᵥ fun i => F (X i) ω) ≤ c ⬝ᵥ (pred ω).mu + a * Real.sqrt (c ⬝ᵥ (pred ω).cov *ᵥ c)} ∩ E0 p) =
        gaussianReal 0 1 (Set.Iic a) * μ ({ω | 0 < c ⬝ᵥ (pred ω).cov *ᵥ c ∧ run ω T ∈ E} ∩ E0 p) := by
      intro p
      by_cases hv : 0 < c ⬝ᵥ C p *ᵥ c
      · have h := (hfix p c).1 hv a (Q p ∩ {v | dataOf mean (path p) s (extend v) T ∈ E}) ((hQm p).inter (hev p T E hE))
        have e1 : {ω | (0 < c ⬝ᵥ (pred ω).cov *ᵥ c ∧ run ω T ∈ E) ∧
            (c ⬝ᵥ fun i => F (X i) ω) ≤ c ⬝ᵥ (pred ω).mu + a * Real.sqrt (c ⬝ᵥ (pred ω).cov *ᵥ c)} ∩ E0 p =
            {ω | (c ⬝ᵥ fun i => F (X i) ω) ≤ c ⬝ᵥ (fpred p ω).mu + a * Real.sqrt (c ⬝ᵥ C p *ᵥ c) ∧
              (fun t : Fin T => F (path p t) ω + err t ω) ∈ Q p ∩ {v | dataOf mean (path p) s (extend v) T ∈ E}} := by
          ext ω
          constructor
          · rintro ⟨⟨⟨-, h2⟩, h3⟩, h4⟩
            rw [hon p ω h4, (hC p ω).1] at h3
            refine ⟨h3, (hEQ p ω).1 h4, ?_⟩
            rw [hEd p ω h4] at h2
            rw [Set.mem_setOf_eq]
            exact (hext p ω T le_rfl).symm ▸ h2
          · rintro ⟨h3, h4, h2⟩
            have h4' : ω ∈ E0 p := (hEQ p ω).2 h4
            refine ⟨⟨⟨?_, ?_⟩, ?_⟩, h4'⟩
            · rw [hon p ω h4', (hC p ω).1]; exact hv
            · rw [hEd p ω h4', ← hext p ω T le_rfl]; exact h2
            · rw [hon p ω h4', (hC p ω).1]; exact h3
        have e2 : {ω | 0 < c ⬝ᵥ (pred ω).cov *ᵥ c ∧ run ω T ∈ E} ∩ E0 p =
            {ω | (fun t : Fin T => F (path p t) ω + err t ω) ∈ Q p ∩ {v | dataOf mean (path p) s (extend v) T ∈ E}} := by
          ext ω
          constructor
          · rintro ⟨⟨-, h2⟩, h4⟩
            refine ⟨(hEQ p ω).1 h4, ?_⟩
            rw [hEd p ω h4] at h2
            rw [Set.mem_setOf_eq]
            exact (hext p ω T le_rfl).symm ▸ h2
          · rintro ⟨h4, h2⟩
            have h4' : ω ∈ E0 p := (hEQ p ω).2 h4
            refine ⟨⟨?_, ?_⟩, h4'⟩
            · rw [hon p ω h4', (hC p ω).1]; exact hv
            · rw [hEd p ω h4', ← hext p ω T le_rfl]; exact h2
        rw [e1, e2, h]
      · have e1 : {ω | 0 < c ⬝ᵥ (pred ω).cov *ᵥ c ∧ run ω T ∈ E} ∩ E0 p = ∅ := by
          ext ω
          simp only [Set.mem_inter_iff, Set.mem_setOf_eq, Set.mem_empty_iff_false, iff_false]
          rintro ⟨⟨h1, -⟩, h4⟩
          rw [hon p ω h4, (hC p ω).1] at h1
          exact hv h1
        have e2 : {ω | (0 < c ⬝ᵥ (pred ω).cov *ᵥ c ∧ run ω T ∈ E) ∧
            (c ⬝ᵥ fun i => F (X i) ω) ≤ c ⬝ᵥ (pred ω).mu + a * Real.sqrt (c ⬝ᵥ (pred ω).cov *ᵥ c)} ∩ E0 p = ∅ :=
          Set.eq_empty_of_subset_empty fun ω h => e1 ▸ (⟨h.1.1, h.2⟩ : ω ∈ {ω | 0 < c ⬝ᵥ (pred ω).cov *ᵥ c ∧ run ω T ∈ E} ∩ E0 p)
        rw [e1, e2]
        simp
    have h1 := measure_sum_parts μ hE0m hdisj hcover {ω | (0 < c ⬝ᵥ (pred ω).cov *ᵥ c ∧ run ω T ∈ E) ∧
          (c ⬝ᵥ fun i => F (X i) ω) ≤ c ⬝ᵥ (pred ω).mu + a * Real.sqrt (c ⬝ᵥ (pred ω).cov *ᵥ c)}
    have h2 := measure_sum_parts μ hE0m hdisj hcover {ω | 0 < c ⬝ᵥ (pred ω).cov *ᵥ c ∧ run ω T ∈ E}
    simp only [key, ← Finset.mul_sum] at h1
    rw [← h2] at h1
    rw [measureReal_def, h1, ENNReal.toReal_mul]
    rfl
  · have h := ae_all_iff.2 fun p : Fin T → S => (ae_all_iff.2 fun hv : c ⬝ᵥ C p *ᵥ c ≤ 0 => (hfix p c).2 hv)
    filter_upwards [h] with ω hω hv
    obtain ⟨p, hp⟩ := hcover ω
    rw [hon p ω hp] at hv ⊢
    rw [(hC p ω).1] at hv
    exact hω p hv

/-- C135, the loop with `UCBLearner`: choosing the candidate with the largest upper confidence bound is a rule of this kind, and the loop, which never
raises, is the active learning with this rule. -/
theorem C135_ucb (k : KExpr ℝ (Pt d)) (hok : AllLeaves (LeafOK (d = 1)) k) (hq : AllLeaves NoNoise k) (alpha : ℝ) {s : Nat → ℝ} (hs : ∀ t, 0 < s t)
    {S : Finset (Pt d)} {turns : Nat → UcbTurn d} (hts : ∀ t, TurnOK S 1 (turns t)) :
    IsRule (fun _ => 0) s S (fun t => ucbChoice (kcov k) alpha (turns t)) ∧
    ∀ (f : Pt d → ℝ) (e : Nat → ℝ) (T : Nat), noisyUcb (kcov k) alpha f s e turns T =
      .ok (activeRun (fun _ => 0) (fun t => ucbChoice (kcov k) alpha (turns t)) f s e T) := by
  refine ⟨⟨fun t st => ?_, fun t x z => ?_⟩, fun f e T => ?_⟩
  · have hn : 0 < (turns t).cands.length := (hts t).enough
    have hh : (turns t).cands.headD 0 ∈ (turns t).cands := by
      cases h : (turns t).cands with
      | nil => rw [h] at hn; simp at hn
      | cons a l => simp
    refine (hts t).mem _ ?_
    unfold ucbChoice
    split
    · rename_i i _ _ _
      cases h : (turns t).cands[i]? with
      | none => simpa using hh
      | some y => simpa using List.mem_of_getElem? h
    · exact hh
  · have hn : 0 < (turns t).cands.length := (hts t).enough
    obtain ⟨pred, hp, hm, hsig⟩ := data_prediction k hok hq (fun _ => 0) z hs t (turns t).cands.get hn
    set l := (turns t).ordL 0 (Finset.range (turns t).cands.length) with hl
    have hscore : ∀ i, Measurable fun v => ucbScore alpha (pred v) i := by
      intro i
      by_cases hi : i < (turns t).cands.length
      · have e : (fun v => ucbScore alpha (pred v) i) = fun v => (pred v).mu ⟨i, hi⟩ + alpha * Real.sqrt ((pred 0).sigma ⟨i, hi⟩) := by
          funext v
          have := ucbScore_fin alpha (pred v) ⟨i, hi⟩
          rw [hsig v 0] at this
          exact this
        rw [e]
        exact (hm _).add measurable_const
      · have e : (fun v => ucbScore alpha (pred v) i) = fun _ => 0 := by
          funext v
          simp [ucbScore, List.getD_eq_getElem?_getD, hi]
        rw [e]
        exact measurable_const
    obtain ⟨j0, l', hcons⟩ : ∃ j0 l', l = j0 :: l' := by
      have : 0 ∈ l := by rw [hl, (hts t).ordL 0]; simpa using hn
      cases h : l with
      | nil => rw [h] at this; cases this
      | cons a b => exact ⟨a, b, rfl⟩
    set am : (Nat → ℝ) → Nat := fun v => argmaxFrom (l'.map fun j => ucbScore alpha (pred v) j) 1 0 (ucbScore alpha (pred v) j0) with ham
    have hamm : Measurable am := argmaxFrom_measurable hscore l' 1 0 _ (hscore j0)
    have hset : {v : Nat → ℝ | dataOf (fun _ => 0) z s v t ∈ {st | ucbChoice (kcov k) alpha (turns t) st = x}} =
        am ⁻¹' {m | (l[m]?.bind fun i => (turns t).cands[i]?) = some x} := by
      ext v
      obtain ⟨m, i, h1, h2, h3, -, -⟩ := choice_eq (alpha := alpha) (hts t).ordL (hp v) hn
      have h4 : am v = m := by
        rw [← hl, hcons] at h1
        simp only [List.map_cons, npArgmax, Except.ok.injEq] at h1
        exact h1
      rw [← hl] at h2
      simp only [Set.mem_setOf_eq, Set.mem_preimage, h3, h4, h2, Option.bind_some]
      rw [List.getElem?_eq_getElem i.2]
      exact ⟨fun h => by rw [← h]; rfl, fun h => Option.some.inj h⟩
    rw [hset]
    exact hamm (MeasurableSet.of_discrete)
  · induction T with
    | zero => rfl
    | succ T ih =>
      have hn : 0 < (turns T).cands.length := (hts T).enough
      have hdata : ∀ T, ∃ z v, activeRun (fun _ => 0) (fun t => ucbChoice (kcov k) alpha (turns t)) f s e T = dataOf (fun _ => 0) z s v T :=
        fun T => ⟨_, _, follows_data (fun _ => 0) _ f s e _ fun t _ => rfl⟩
      obtain ⟨z, v, hzv⟩ := hdata T
      obtain ⟨pred, hp, -, -⟩ := data_prediction k hok hq (fun _ => 0) z hs T (turns T).cands.get hn
      have hp' := hp v
      rw [← hzv] at hp'
      obtain ⟨m, i, -, -, h3, h4, -⟩ := choice_eq (alpha := alpha) (hts T).ordL hp' hn
      simp only [noisyUcb, ih, h4, activeRun, h3]

/-! Instance: a random line, measured five times at 1 or 2 as `UCBLearner` chooses. Its value at 10 minus three times its value at 1 is predicted. -/

private lemma two_points : TurnOK {![1], ![2]} 1 (⟨[![1], ![2]], fun _ => sortedList, sortedList⟩ : UcbTurn 1) where
  mem := by simp
  enough := by simp
  ordL _ := sort_enumerates
  ord := sort_enumerates

example : ∃ pred : (Nat → ℝ) → GPPred 2, (∀ ω, ∃ st, noisyUcb (kcov (.leaf (.linear 1 0 0) : KExpr ℝ (Pt 1))) 2 (fun x => ω 0 * x 0) (fun _ => 1)
      (fun t => ω (t + 1)) (fun _ => ⟨[![1], ![2]], fun _ => sortedList, sortedList⟩) 5 = .ok st ∧
      gpRegress (kcov (.leaf (.linear 1 0 0) : KExpr ℝ (Pt 1))) (fun _ => 0) st ![![10], ![1]] = .ok (pred ω)) ∧
    gaussDraws.real {ω | 0 < ![1, -3] ⬝ᵥ (pred ω).cov *ᵥ ![1, -3] ∧ (![1, -3] ⬝ᵥ fun i => ω 0 * (![![10], ![1]] : Fin 2 → Pt 1) i 0) ≤
        ![1, -3] ⬝ᵥ (pred ω).mu + 2 * Real.sqrt (![1, -3] ⬝ᵥ (pred ω).cov *ᵥ ![1, -3])} =
      Phi 2 * gaussDraws.real {ω | 0 < ![1, -3] ⬝ᵥ (pred ω).cov *ᵥ ![1, -3]} := by
  obtain ⟨hr, hl⟩ := C135_ucb (.leaf (.linear 1 0 0) : KExpr ℝ (Pt 1)) (by simp [AllLeaves, LeafOK]) (by simp [AllLeaves, NoNoise, noiseOf]) 2
    (s := fun _ => 1) (fun _ => one_pos) (fun _ => two_points)
  obtain ⟨pred, hp, -, h⟩ := C135_posterior (.leaf (.linear 1 0 0) : KExpr ℝ (Pt 1)) (by simp [AllLeaves, LeafOK])
    (by simp [AllLeaves, NoNoise, noiseOf]) (μ := gaussDraws) (fun x => by fun_prop) line_random (fun _ => one_pos) (fun t => by fun_prop) line_error hr
    (T := 5) (by norm_num) ![![10], ![1]] (by norm_num) (fun z => line_gauss z 5 ![![10], ![1]])
  exact ⟨pred, fun ω => ⟨_, hl (fun x => ω 0 * x 0) (fun t => ω (t + 1)) 5, hp ω⟩, by
    simpa using (h ![1, -3]).1 2 Set.univ fun z => by simp⟩

end Lop.Props
