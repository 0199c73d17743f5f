import Verif.Spec.Dialogue
import Verif.Proofs.StrongLaw
import Verif.Props.ManyQuestions
import Mathlib.Probability.Independence.InfinitePi
import Mathlib.Probability.ConditionalExpectation
import Mathlib.Probability.ProbabilityMassFunction.Constructions
import Mathlib.Probability.ProbabilityMassFunction.Integrals

/-! # C132: the values are learnt almost surely, whatever rule picks the questions -/

namespace Lop.Props

open Lop.Spec Matrix Topology Filter MeasureTheory ProbabilityTheory

variable {n : Nat}

/-- Which way round the question is about `u` and `v`. -/
private def orient (u v : Fin n) (q : Fin n × Fin n) : ℝ := (if q = (u, v) then 1 else 0) - if q = (v, u) then 1 else 0

private lemma orient_le (u v : Fin n) (q : Fin n × Fin n) : |orient u v q| ≤ 1 := by
  unfold orient
  split_ifs <;> norm_num

private lemma dev_eq {k : Nat} (sigma : ℝ) (qs : Fin k → Fin n × Fin n) (f : Fin n → ℝ) {u v : Fin n} (huv : u ≠ v) (i : Fin k)
    (b : Bool) : answerDev sigma qs f u v i b =
      orient u v (qs i) * ((if b then (1 : ℝ) else 0) - chanceAbove sigma f (qs i).1 (qs i).2) := by
  by_cases h1 : qs i = (u, v)
  · have h2 : (u, v) ≠ (v, u) := fun h => huv (Prod.ext_iff.1 h).1
    cases b <;> simp [answerDev, orient, h1, PutsAbove, huv]
  · by_cases h2 : qs i = (v, u)
    · have h3 : (v, u) ≠ (u, v) := fun h => huv (Prod.ext_iff.1 h).2
      have := chanceAbove_swap sigma f u v
      cases b <;> simp [answerDev, orient, h2, PutsAbove, huv, huv.symm, this]
    · have h3 : ¬ PutsAbove u v ⟨if b then 1 else -1, (qs i).1, (qs i).2⟩ := by
        intro h
        rcases h with ⟨-, a, c⟩ | ⟨-, a, c⟩
        · exact h1 (Prod.ext a c)
        · exact h2 (Prod.ext a c)
      simp [answerDev, orient, h1, h2, h3]

/-- C132: a dialogue in which each question may be chosen from all earlier answers, as the active learners do, and is answered at
random as the probit says at the values `f`: if the questions that take a fixed share connect the points, then almost surely the
mode converges to `f` up to the constant no comparison can tell, and in the end ranks all points as `f` does. -/
theorem C132_almost_surely {sigma : ℝ} (hs : 0 < sigma) {Ω : Type*} {mΩ : MeasurableSpace Ω} {μ : Measure Ω}
    [IsProbabilityMeasure μ] {ℱ : Filtration ℕ mΩ} {f : Fin n → ℝ} {qs : ℕ → Ω → Fin n × Fin n} {a : ℕ → Ω → Bool}
    (hd : IsDialogue μ ℱ sigma f qs a)
    (hconn : ∀ᵐ ω ∂μ, ∀ u v, Relation.EqvGen (fun u v => u ≠ v ∧ ∃ rho : ℝ, 0 < rho ∧
      ∀ᶠ k : ℕ in atTop, rho * k ≤ timesAsked (dialogueLabels qs a ω k) u v) u v)
    {K : Matrix (Fin n) (Fin n) ℝ} (hK : K.PosDef) {m : Ω → ℕ → Fin n → ℝ}
    (hm : ∀ ω k, IsMode sigma (dialogueLabels qs a ω k) K (m ω k)) :
    ∀ᵐ ω ∂μ, Tendsto (m ω) atTop (𝓝 fun i => f i - (1 ⬝ᵥ (K⁻¹ *ᵥ f)) / (1 ⬝ᵥ (K⁻¹ *ᵥ 1))) ∧
      ∀ᶠ k in atTop, ∀ u v, f u < f v → m ω k u < m ω k v := by
  -- one answer, centred
  set Y : ℕ → Ω → ℝ := fun i ω => (if a i ω then (1 : ℝ) else 0) - chanceAbove sigma f (qs i ω).1 (qs i ω).2 with hYd
  have hq' : ∀ i, Measurable[ℱ i] fun ω => chanceAbove sigma f (qs i ω).1 (qs i ω).2 := fun i =>
    (measurable_of_countable fun q : Fin n × Fin n => chanceAbove sigma f q.1 q.2).comp (hd.question i)
  have hi' : ∀ i, Measurable[ℱ (i + 1)] fun ω => if a i ω then (1 : ℝ) else 0 := fun i =>
    (measurable_of_countable fun b : Bool => if b then (1 : ℝ) else 0).comp (hd.answer i)
  have hYm : ∀ i, Measurable[ℱ (i + 1)] (Y i) := fun i => (hi' i).sub ((hq' i).mono (ℱ.mono (Nat.le_succ i)) le_rfl)
  have hYb : ∀ i ω, |Y i ω| ≤ 1 := by
    intro i ω
    obtain ⟨h0, h1⟩ := chanceAbove_mem sigma f (qs i ω).1 (qs i ω).2
    simp only [hYd]
    rw [abs_le]
    split_ifs <;> constructor <;> linarith
  have hYi : ∀ i, Integrable (Y i) μ := fun i => bounded_integrable ((hYm i).mono (ℱ.le _) le_rfl) (hYb i)
  have hY0 : ∀ i, μ[Y i | ℱ i] =ᵐ[μ] 0 := by
    intro i
    have h1 : Integrable (fun ω => if a i ω then (1 : ℝ) else 0) μ :=
      bounded_integrable ((hi' i).mono (ℱ.le _) le_rfl) (c := 1) fun ω => by split_ifs <;> norm_num
    have h2 : Integrable (fun ω => chanceAbove sigma f (qs i ω).1 (qs i ω).2) μ :=
      bounded_integrable ((hq' i).mono (ℱ.le _) le_rfl) (c := 1) fun ω => by
        obtain ⟨h0, h1⟩ := chanceAbove_mem sigma f (qs i ω).1 (qs i ω).2
        rw [abs_of_pos h0]
        exact h1.le
    have h3 := condExp_sub h1 h2 (ℱ i)
    have h4 : μ[fun ω => chanceAbove sigma f (qs i ω).1 (qs i ω).2 | ℱ i] = fun ω => chanceAbove sigma f (qs i ω).1 (qs i ω).2 :=
      condExp_of_stronglyMeasurable (ℱ.le i) (hq' i).stronglyMeasurable h2
    filter_upwards [h3, hd.chance i] with ω e1 e2
    have e3 : Y i = (fun ω => if a i ω then (1 : ℝ) else 0) - fun ω => chanceAbove sigma f (qs i ω).1 (qs i ω).2 := rfl
    rw [e3, e1, Pi.sub_apply, e2, h4, sub_self, Pi.zero_apply]
  -- the surplus of answers about two points
  have hlaw : ∀ u v : Fin n, ∀ᵐ ω ∂μ, u ≠ v → Tendsto (fun k : ℕ => (timesAbove (dialogueLabels qs a ω k) u v -
      timesAsked (dialogueLabels qs a ω k) u v * Phi ((f v - f u) / (Real.sqrt 2 * sigma))) / (k : ℝ)) atTop (𝓝 0) := by
    intro u v
    by_cases huv : u = v
    · exact .of_forall fun ω h => absurd huv h
    have hO : ∀ i, Measurable[ℱ i] fun ω => orient u v (qs i ω) := fun i =>
      (measurable_of_countable (orient u v)).comp (hd.question i)
    have hXm : ∀ i, Measurable[ℱ (i + 1)] fun ω => orient u v (qs i ω) * Y i ω := fun i =>
      ((hO i).mono (ℱ.mono (Nat.le_succ i)) le_rfl).mul (hYm i)
    have hXb : ∀ i ω, |orient u v (qs i ω) * Y i ω| ≤ 1 := fun i ω => by
      rw [abs_mul]
      exact mul_le_one₀ (orient_le _ _ _) (abs_nonneg _) (hYb i ω)
    have hlt : ∀ i j, i < j → ∫ ω, (orient u v (qs i ω) * Y i ω) * (orient u v (qs j ω) * Y j ω) ∂μ = 0 := by
      intro i j hij
      have := uncorrelated_past (μ := μ) (ℱ.le j) (Z := fun ω => (orient u v (qs i ω) * Y i ω) * orient u v (qs j ω))
        (((hXm i).mono (ℱ.mono hij) le_rfl).mul (hO j)) (c := 1)
        (fun ω => by
          rw [abs_mul]
          exact mul_le_one₀ (hXb i ω) (abs_nonneg _) (orient_le _ _ _)) (hYi j) (hY0 j)
      rw [← this]
      exact integral_congr_ae (.of_forall fun ω => by simp only; ring)
    have := strong_law_bounded (μ := μ) (X := fun i ω => orient u v (qs i ω) * Y i ω)
      (fun i => (hXm i).mono (ℱ.le _) le_rfl) hXb (fun i j hij => by
        rcases lt_or_gt_of_ne hij with h | h
        · exact hlt i j h
        · rw [← hlt j i h]
          exact integral_congr_ae (.of_forall fun ω => by simp only; ring))
    filter_upwards [this] with ω hω _
    refine hω.congr fun k => ?_
    congr 1
    have h1 := answerDev_sum (sigma := sigma) (qs := fun i : Fin k => qs i ω) (F := f) u v fun i => a i ω
    rw [chanceAbove] at h1
    rw [dialogueLabels, h1, ← Fin.sum_univ_eq_sum_range (fun i => orient u v (qs i ω) * Y i ω)]
    exact Finset.sum_congr rfl fun i _ => (dev_eq sigma (fun i : Fin k => qs i ω) f huv i (a i ω)).symm
  have hlaw' := ae_all_iff.2 fun u => ae_all_iff.2 (hlaw u)
  filter_upwards [hlaw', hconn] with ω h1 h2
  have hlen : ∀ k, (dialogueLabels qs a ω k).length = k := fun k => by simp [dialogueLabels, answerLabels]
  refine C132_identified hs (y := dialogueLabels qs a ω) ?_ ?_ f ?_ ?_ hK (hm ω)
  · intro k p hp
    obtain ⟨i, rfl⟩ := (List.mem_ofFn' _ _).1 hp
    simp only
    split_ifs <;> simp
  · simp_rw [hlen]
    exact tendsto_id
  · simp_rw [hlen]
    exact h1
  · simp_rw [hlen]
    exact h2

/-- The law of one answer. -/
private noncomputable def answerLaw (sigma : ℝ) (f : Fin n → ℝ) (q : Fin n × Fin n) : Measure Bool :=
  (PMF.bernoulli (⟨chanceAbove sigma f q.1 q.2, (chanceAbove_mem sigma f q.1 q.2).1.le⟩ : NNReal)
    (show _ ≤ _ from (chanceAbove_mem sigma f q.1 q.2).2.le)).toMeasure

private instance (sigma : ℝ) (f : Fin n → ℝ) (q : Fin n × Fin n) : IsProbabilityMeasure (answerLaw sigma f q) := by
  unfold answerLaw; infer_instance

/-- There are such dialogues: any list of questions, answered independently. -/
example (sigma : ℝ) (f : Fin n → ℝ) (qs : ℕ → Fin n × Fin n) :
    ∃ (μ : Measure (ℕ → Bool)) (_ : IsProbabilityMeasure μ) (ℱ : Filtration ℕ MeasurableSpace.pi),
      IsDialogue μ ℱ sigma f (fun i _ => qs i) (fun i ω => ω i) := by
  set μ := Measure.infinitePi fun i => answerLaw sigma f (qs i)
  set M : ℕ → MeasurableSpace (ℕ → Bool) := fun i => MeasurableSpace.comap (fun ω => ω i) inferInstance with hM
  have hle : ∀ i, M i ≤ MeasurableSpace.pi := fun i => (measurable_pi_apply i).comap_le
  set ℱ : Filtration ℕ (MeasurableSpace.pi : MeasurableSpace (ℕ → Bool)) :=
    { seq := fun i => ⨆ j ∈ Set.Iio i, M j
      mono' := fun i j hij => biSup_mono fun k hk => lt_of_lt_of_le hk hij
      le' := fun i => iSup₂_le fun j _ => hle j } with hF
  have hind : iIndep M μ := by
    have := iIndepFun_infinitePi (P := fun i => answerLaw sigma f (qs i)) (X := fun _ b => b) fun _ => measurable_id
    exact this.iIndep
  refine ⟨μ, inferInstance, ℱ, fun i => measurable_const, fun i => ?_, fun i => ?_⟩
  · exact (comap_measurable _).mono (le_iSup₂_of_le (f := fun j (_ : j ∈ Set.Iio (i + 1)) => M j) i (Nat.lt_succ_self i) le_rfl)
      le_rfl
  · have h1 : Indep (M i) (ℱ i) μ := by
      have := indep_iSup_of_disjoint hle hind (S := {i}) (T := Set.Iio i) (by simp)
      rwa [iSup_singleton] at this
    have h2 : StronglyMeasurable[M i] fun ω : ℕ → Bool => if ω i then (1 : ℝ) else 0 :=
      ((measurable_of_countable fun b : Bool => if b then (1 : ℝ) else 0).comp (comap_measurable _)).stronglyMeasurable
    have h3 := condExp_indep_eq (hle i) (ℱ.le i) h2 h1
    have h4 : ∫ ω, (if ω i then (1 : ℝ) else 0) ∂μ = chanceAbove sigma f (qs i).1 (qs i).2 := by
      have e1 : ∫ ω, (if ω i then (1 : ℝ) else 0) ∂μ = ∫ b, (if b then (1 : ℝ) else 0) ∂(answerLaw sigma f (qs i)) := by
        rw [← Measure.infinitePi_map_eval (fun i => answerLaw sigma f (qs i)) i, integral_map]
        · exact (measurable_pi_apply i).aemeasurable
        · exact (measurable_of_countable _).aestronglyMeasurable
      rw [e1, answerLaw, PMF.integral_eq_sum]
      simp
      rfl
    filter_upwards [h3] with ω h
    rw [h, h4]

/-- … and the frequent questions connect the points, if two points are compared again and again. -/
example (a : ℕ → (ℕ → Bool) → Bool) (ω : ℕ → Bool) : ∀ u v, Relation.EqvGen (fun u v : Fin 2 => u ≠ v ∧ ∃ rho : ℝ, 0 < rho ∧
    ∀ᶠ k : ℕ in atTop, rho * k ≤ timesAsked (dialogueLabels (fun _ _ => (0, 1)) a ω k) u v) u v := by
  have h : (0 : Fin 2) ≠ 1 ∧ ∃ rho : ℝ, 0 < rho ∧
      ∀ᶠ k : ℕ in atTop, rho * k ≤ timesAsked (dialogueLabels (fun _ _ => ((0 : Fin 2), (1 : Fin 2))) a ω k) 0 1 := by
    refine ⟨by decide, 1, one_pos, .of_forall fun k => ?_⟩
    rw [dialogueLabels, timesAsked_answers]
    simp
  intro u v
  fin_cases u <;> fin_cases v
  · exact .refl _
  · exact .rel _ _ h
  · exact .symm _ _ (.rel _ _ h)
  · exact .refl _

end Lop.Props
