import Verif.Props.SampleSets
import Verif.Spec.SampleProb
import Mathlib.Probability.Independence.InfinitePi
import Mathlib.Probability.Distributions.Uniform
import Mathlib.Analysis.SpecificLimits.Basic

/-! # C89: sampling distinct subsets ends with probability one -/

namespace Lop.Props

open Lop Lop.Spec MeasureTheory ProbabilityTheory Filter

variable {α : Type*} [LinearOrder α]

theorem loop_done {s : List α} {rng : Nat → Nat → List α} {numSets size fuel t : Nat} {uniq : List (List α)}
    (h : ¬ uniq.length < numSets) : sampleUniqueLoop s rng numSets size fuel t uniq = .ok (some (uniq.take numSets)) := by
  unfold sampleUniqueLoop
  rw [if_neg h]

theorem loop_step {s : List α} {rng : Nat → Nat → List α} {numSets size fuel t : Nat} {uniq : List (List α)}
    (h : uniq.length < numSets) (hsz : size ≤ s.length) : sampleUniqueLoop s rng numSets size (fuel + 1) t uniq =
      sampleUniqueLoop s rng numSets size fuel (t + 1) (samplePass (rng t) numSets uniq) := by
  conv_lhs => unfold sampleUniqueLoop
  rw [if_pos h]
  simp only
  rw [if_neg (by omega)]

/-- More passes do no harm. -/
theorem loop_returns_mono {s : List α} {rng : Nat → Nat → List α} {numSets size : Nat} (hsz : size ≤ s.length) (a b : Nat) :
    ∀ (t : Nat) (uniq out : List (List α)), sampleUniqueLoop s rng numSets size a t uniq = .ok (some out) →
      sampleUniqueLoop s rng numSets size (a + b) t uniq = .ok (some out) := by
  induction a with
  | zero =>
    intro t uniq out h
    by_cases h1 : uniq.length < numSets
    · unfold sampleUniqueLoop at h
      rw [if_pos h1] at h
      simp at h
    · rw [loop_done h1] at h ⊢
      exact h
  | succ a ih =>
    intro t uniq out h
    rw [show a + 1 + b = (a + b) + 1 by omega]
    by_cases h1 : uniq.length < numSets
    · rw [loop_step h1 hsz] at h ⊢
      exact ih _ _ _ h
    · rw [loop_done h1] at h ⊢
      exact h

/-- Passes whose first draws are the missing rows, one after the other, complete the loop from every state. -/
theorem loop_returns_block {s : List α} {rng : Nat → Nat → List α} {numSets size : Nat} (hsz : size ≤ s.length)
    (R : List (List α)) (hR : R.Nodup) (hl : R.length = numSets) :
    ∀ (k t : Nat) (uniq : List (List α)), k ≤ numSets → R.take (numSets - k) ⊆ uniq →
      (∀ j < k, ∀ (hj : numSets - k + j < R.length), (rng (t + j) 0).insertionSort (· ≤ ·) = R[numSets - k + j]) →
      uniq.Nodup → ∃ out, sampleUniqueLoop s rng numSets size k t uniq = .ok (some out) := by
  intro k
  induction k with
  | zero =>
    intro t uniq _ hsub _ hn
    refine ⟨_, loop_done ?_⟩
    · have : R ⊆ uniq := by simpa [← hl] using hsub
      have := (List.subperm_of_subset hR this).length_le
      omega
  | succ k ih =>
    intro t uniq hk hsub hr hn
    by_cases h1 : uniq.length < numSets
    · rw [loop_step h1 hsz]
      refine ih (t + 1) _ (by omega) ?_ ?_ (uniqueRows_nodup _)
      · intro r hrm
        unfold samplePass
        rw [mem_uniqueRows, List.mem_append]
        have hlt : numSets - (k + 1) < R.length := by omega
        rw [show numSets - k = numSets - (k + 1) + 1 by omega, List.take_succ_eq_append_getElem hlt, List.mem_append] at hrm
        rcases hrm with hrm | hrm
        · exact .inl (hsub hrm)
        · right
          rw [List.mem_map]
          refine ⟨0, ?_, ?_⟩
          · rw [List.mem_range]
            have := toSample_ge numSets uniq.length
            omega
          · have := hr 0 (by omega) (by omega)
            simp only [Nat.add_zero] at this
            rw [this]
            exact (List.mem_singleton.1 hrm).symm
      · intro j hj hj'
        have := hr (j + 1) (by omega) (by omega)
        rw [show t + 1 + j = t + (j + 1) by omega, this]
        congr 1
        omega
    · exact ⟨_, loop_done h1⟩

variable {Ω : Type*} [MeasurableSpace Ω] {μ : Measure Ω}

/-- The first draws of block `b` of `n` passes are the rows of `R`. -/
def blockEvent (rng : Nat → Nat → Ω → List α) (n : Nat) (R : Nat → List α) (b : Nat) : Set Ω :=
  ⋂ j ∈ Finset.range n, {ω | rng (b * n + j) 0 ω = R j}

theorem blockEvent_meas {rng : Nat → Nat → Ω → List α} (n : Nat) (R : Nat → List α) (b : Nat) (T : Set Nat)
    (hT : ∀ j < n, b * n + j ∈ T) :
    MeasurableSet[⨆ t ∈ T, MeasurableSpace.comap (rng t 0) ⊤] (blockEvent rng n R b) := by
  refine Finset.measurableSet_biInter _ fun j hj => ?_
  have h1 : MeasurableSpace.comap (rng (b * n + j) 0) ⊤ ≤ ⨆ t ∈ T, MeasurableSpace.comap (rng t 0) ⊤ :=
    le_iSup₂ (f := fun t (_ : t ∈ T) => MeasurableSpace.comap (rng t 0) (⊤ : MeasurableSpace (List α))) (b * n + j)
      (hT j (by simpa using hj))
  exact h1 _ ⟨{x | x = R j}, trivial, rfl⟩

theorem blockEvent_prob [IsProbabilityMeasure μ] {P : List α → Prop} {p : ℝ} {rng : Nat → Nat → Ω → List α} (hf : FairDraws μ P p rng)
    (n : Nat) (R : Nat → List α) (hR : ∀ j < n, P (R j)) (b : Nat) : p ^ n ≤ μ.real (blockEvent rng n R b) := by
  rcases Nat.eq_zero_or_pos n with rfl | hn
  · simp [blockEvent]
  have key := iIndepFun.measure_inter_preimage_eq_mul hf.indep ((Finset.range n).map ⟨fun j => b * n + j, fun a c h => by simpa using h⟩)
    (sets := fun t => {x | x = R (t - b * n)}) (fun _ _ => trivial)
  have he : (⋂ i ∈ (Finset.range n).map ⟨fun j => b * n + j, fun a c h => by simpa using h⟩, rng i 0 ⁻¹' {x | x = R (i - b * n)}) =
      blockEvent rng n R b := by
    ext ω
    simp only [Finset.mem_map, Finset.mem_range, Set.mem_iInter, Set.mem_preimage, Set.mem_setOf_eq, blockEvent,
      forall_exists_index, and_imp, forall_apply_eq_imp_iff₂]
    change (∀ a < n, rng (b * n + a) 0 ω = R (b * n + a - b * n)) ↔ _
    simp only [Nat.add_sub_cancel_left]
  rw [he] at key
  rw [Measure.real, key, ENNReal.toReal_prod, Finset.prod_map]
  have : ∀ j ∈ Finset.range n, p ≤ (μ (rng (b * n + j) 0 ⁻¹' {x | x = R (b * n + j - b * n)})).toReal := by
    intro j hj
    have := hf.prob (b * n + j) (R j) (hR j (by simpa using hj))
    rw [Nat.add_sub_cancel_left]
    exact this
  calc p ^ n = ∏ _j ∈ Finset.range n, p := by simp
    _ ≤ _ := Finset.prod_le_prod (fun _ _ => hf.pos.le) this

theorem blockEvent_none [IsProbabilityMeasure μ] {P : List α → Prop} {p : ℝ} {rng : Nat → Nat → Ω → List α} (hf : FairDraws μ P p rng)
    (n : Nat) (R : Nat → List α) (hR : ∀ j < n, P (R j)) (B : Nat) :
    μ.real (⋂ b ∈ Finset.range B, (blockEvent rng n R b)ᶜ) ≤ (1 - p ^ n) ^ B := by
  have hle : ∀ t, MeasurableSpace.comap (rng t 0) ⊤ ≤ (inferInstance : MeasurableSpace Ω) := fun t => (hf.meas t).comap_le
  have hm : ∀ b, MeasurableSet (blockEvent rng n R b) := fun b => by
    have := blockEvent_meas (rng := rng) n R b Set.univ (by simp)
    exact (iSup₂_le fun t _ => hle t) _ this
  have h1 : ∀ b, μ.real (blockEvent rng n R b)ᶜ ≤ 1 - p ^ n := by
    intro b
    rw [probReal_compl_eq_one_sub (hm b)]
    have := blockEvent_prob hf n R hR b
    linarith
  induction B with
  | zero => simp
  | succ B ih =>
    have hsplit : (⋂ b ∈ Finset.range (B + 1), (blockEvent rng n R b)ᶜ) =
        (⋂ b ∈ Finset.range B, (blockEvent rng n R b)ᶜ) ∩ (blockEvent rng n R B)ᶜ := by
      ext ω
      simp only [Set.mem_iInter, Finset.mem_range, Set.mem_inter_iff, Set.mem_compl_iff]
      constructor
      · exact fun h => ⟨fun b hb => h b (by omega), h B (by omega)⟩
      · rintro ⟨h2, h3⟩ b hb
        rcases Nat.lt_succ_iff_lt_or_eq.1 hb with h | rfl
        · exact h2 b h
        · exact h3
    have hind := indep_iSup_of_disjoint (m := fun t => MeasurableSpace.comap (rng t 0) (⊤ : MeasurableSpace (List α))) hle hf.indep.iIndep
      (S := {t | t < B * n}) (T := {t | B * n ≤ t}) (by
        rw [Set.disjoint_left]; intro t h2 h3; simp at h2 h3; omega)
    rw [Indep_iff] at hind
    have := hind (⋂ b ∈ Finset.range B, (blockEvent rng n R b)ᶜ) (blockEvent rng n R B)ᶜ
      (Finset.measurableSet_biInter _ fun b hb => (blockEvent_meas n R b _ fun j hj => by
        simp only [Finset.mem_range] at hb
        simp only [Set.mem_setOf_eq]
        calc b * n + j < b * n + n := by omega
          _ = (b + 1) * n := by ring
          _ ≤ B * n := Nat.mul_le_mul_right _ hb).compl)
      (blockEvent_meas n R B _ fun j hj => by simp).compl
    rw [hsplit, Measure.real, this, ENNReal.toReal_mul, pow_succ]
    refine mul_le_mul ih (h1 B) ENNReal.toReal_nonneg ?_
    exact (measureReal_nonneg).trans ih

/-- C89: with fair draws a feasible request is answered with probability one; the probability that it is not after `B` times `num_sets` passes is at most
`(1 - p ^ num_sets) ^ B`. -/
theorem C89_finishes [IsProbabilityMeasure μ] (s : List α) (hs : s.Nodup) (numSets size : Nat) (hsz : size ≤ s.length)
    (hfeas : numSets ≤ s.length.choose size) {p : ℝ} {rng : Nat → Nat → Ω → List α}
    (hf : FairDraws μ (ChoiceNoReplace s size) p rng) :
    (∀ᵐ ω ∂μ, ∃ passes out, sampleUniqueSets s (fun t i => rng t i ω) numSets size passes = .ok (some out)) ∧
    (∀ B : Nat, μ.real {ω | ¬ ∃ out, sampleUniqueSets s (fun t i => rng t i ω) numSets size (B * numSets) = .ok (some out)} ≤
      (1 - p ^ numSets) ^ B) ∧ 0 ≤ 1 - p ^ numSets ∧ 1 - p ^ numSets < 1 := by
  obtain ⟨R, hRl, hRg⟩ := exists_fresh_rows hs (uniq := []) (size := size) ⟨by simp, by simp⟩ numSets (by simpa using hfeas)
  rw [List.nil_append] at hRg
  have hRP : ∀ j < numSets, ChoiceNoReplace s size (R[j]?.getD []) := by
    intro j hj
    rw [List.getElem?_eq_getElem (by omega)]
    have hgood := hRg.good R[j] (List.getElem_mem _)
    exact ⟨hgood.len, List.subperm_of_subset (hgood.inc.imp fun h => h.ne) hgood.mem⟩
  have hret : ∀ (ω : Ω) (B : Nat), (∃ b < B, ω ∈ blockEvent rng numSets (fun j => R[j]?.getD []) b) →
      ∃ out, sampleUniqueSets s (fun t i => rng t i ω) numSets size (B * numSets) = .ok (some out) := by
    rintro ω B ⟨b, hb, hω⟩
    have hblock : ∀ uniq : List (List α), uniq.Nodup →
        ∃ out, sampleUniqueLoop s (fun t i => rng t i ω) numSets size numSets (b * numSets) uniq = .ok (some out) := by
      intro uniq hn
      refine loop_returns_block hsz R hRg.nodup hRl numSets _ _ le_rfl (by simp) ?_ hn
      intro j hj hj'
      simp only [blockEvent, Set.mem_iInter, Finset.mem_range, Set.mem_setOf_eq] at hω
      rw [hω j hj, List.getElem?_eq_getElem (by omega), Option.getD_some]
      have hgood := hRg.good R[j] (List.getElem_mem _)
      rw [List.Pairwise.insertionSort_eq (hgood.inc.imp fun h => h.le)]
      congr 1
      omega
    have hall : ∀ (a t : Nat) (uniq : List (List α)), uniq.Nodup → t + a = b * numSets →
        ∃ out, sampleUniqueLoop s (fun t i => rng t i ω) numSets size (a + numSets) t uniq = .ok (some out) := by
      intro a
      induction a with
      | zero => intro t uniq hn ht; rw [Nat.zero_add, show t = b * numSets by omega]; exact hblock uniq hn
      | succ a ih =>
        intro t uniq hn ht
        rw [show a + 1 + numSets = (a + numSets) + 1 by omega]
        by_cases h1 : uniq.length < numSets
        · rw [loop_step h1 hsz]
          exact ih (t + 1) _ (uniqueRows_nodup _) (by omega)
        · exact ⟨_, loop_done h1⟩
    obtain ⟨out, ho⟩ := hall (b * numSets) 0 [] (by simp) (by omega)
    refine ⟨out, ?_⟩
    have := loop_returns_mono hsz (b * numSets + numSets) ((B - (b + 1)) * numSets) 0 [] out ho
    rw [sampleUniqueSets]
    convert this using 2
    have : B = (b + 1) + (B - (b + 1)) := by omega
    calc B * numSets = ((b + 1) + (B - (b + 1))) * numSets := by rw [← this]
      _ = _ := by ring
  have hp1 : p ^ numSets ≤ 1 :=
    (blockEvent_prob hf numSets (fun j => R[j]?.getD []) hRP 0).trans measureReal_le_one
  have hp0 : 0 < p ^ numSets := pow_pos hf.pos _
  have hbound : ∀ B : Nat, μ.real {ω | ¬ ∃ out, sampleUniqueSets s (fun t i => rng t i ω) numSets size (B * numSets) = .ok (some out)} ≤
      (1 - p ^ numSets) ^ B := by
    intro B
    refine le_trans (measureReal_mono ?_) (blockEvent_none hf numSets (fun j => R[j]?.getD []) hRP B)
    intro ω hω
    simp only [Set.mem_iInter, Finset.mem_range, Set.mem_compl_iff]
    intro b hb hb'
    exact hω (hret ω B ⟨b, hb, hb'⟩)
  refine ⟨?_, hbound, by linarith, by linarith⟩
  have hlim : Tendsto (fun B : Nat => (1 - p ^ numSets) ^ B) atTop (nhds 0) :=
    tendsto_pow_atTop_nhds_zero_of_lt_one (by linarith) (by linarith)
  rw [ae_iff]
  have hle : ∀ B : Nat, μ.real {ω | ¬ ∃ passes out, sampleUniqueSets s (fun t i => rng t i ω) numSets size passes = .ok (some out)} ≤
      (1 - p ^ numSets) ^ B := fun B => (measureReal_mono (by
        intro ω hω h
        exact hω ⟨_, h⟩)).trans (hbound B)
  have h0 : μ.real {ω | ¬ ∃ passes out, sampleUniqueSets s (fun t i => rng t i ω) numSets size passes = .ok (some out)} = 0 :=
    le_antisymm (ge_of_tendsto' hlim hle) measureReal_nonneg
  exact (measureReal_eq_zero_iff).1 h0

/-- C89: with fair draws the sampling ends with probability one exactly if there are enough sets; otherwise it ends with probability zero. -/
theorem C89_exactly [IsProbabilityMeasure μ] (s : List α) (hs : s.Nodup) (numSets size : Nat) (hsz : size ≤ s.length)
    {p : ℝ} {rng : Nat → Nat → Ω → List α} (hf : FairDraws μ (ChoiceNoReplace s size) p rng) :
    ((∀ᵐ ω ∂μ, ∃ passes out, sampleUniqueSets s (fun t i => rng t i ω) numSets size passes = .ok (some out)) ↔
      numSets ≤ s.length.choose size) ∧
    (s.length.choose size < numSets →
      ∀ ω, ¬ ∃ passes out, sampleUniqueSets s (fun t i => rng t i ω) numSets size passes = .ok (some out)) := by
  have hno : s.length.choose size < numSets →
      ∀ ω, ¬ ∃ passes out, sampleUniqueSets s (fun t i => rng t i ω) numSets size passes = .ok (some out) := by
    rintro hlt ω ⟨passes, out, h⟩
    rw [C13_infeasible_request_never_returns s hs _ numSets size (fun t i => hf.fits t i ω) hsz hlt] at h
    simp at h
  refine ⟨⟨fun h => ?_, fun h => (C89_finishes s hs numSets size hsz h hf).1⟩, hno⟩
  by_contra hlt
  push Not at hlt
  obtain ⟨ω, hω⟩ := h.exists
  exact hno hlt ω hω


/-- The ordered pairs of different numbers below three. -/
def pairsOfThree : Fin 6 → List Nat := ![[0, 1], [1, 0], [0, 2], [2, 0], [1, 2], [2, 1]]

theorem pairsOfThree_complete (row : List Nat) : ChoiceNoReplace [0, 1, 2] 2 row ↔ ∃ k, row = pairsOfThree k := by
  constructor
  · rintro ⟨hl, hsub⟩
    obtain ⟨a, b, rfl⟩ := List.length_eq_two.1 hl
    have ha : a ∈ [0, 1, 2] := hsub.subset (by simp)
    have hb : b ∈ [0, 1, 2] := hsub.subset (by simp)
    have hnd : [a, b].Nodup := by
      obtain ⟨l, h1, h2⟩ := hsub
      exact h1.nodup_iff.mp (h2.nodup (by decide))
    simp only [List.mem_cons, List.not_mem_nil, or_false] at ha hb
    rcases ha with rfl | rfl | rfl <;> rcases hb with rfl | rfl | rfl <;> first
      | (exact absurd hnd (by decide))
      | exact ⟨0, rfl⟩
      | exact ⟨1, rfl⟩
      | exact ⟨2, rfl⟩
      | exact ⟨3, rfl⟩
      | exact ⟨4, rfl⟩
      | exact ⟨5, rfl⟩
  · rintro ⟨k, rfl⟩
    revert k
    unfold ChoiceNoReplace
    decide

/-- Fair draws of two out of three exist: a six-sided die for each pass. -/
theorem fairDraws_three : FairDraws (Measure.infinitePi fun _ : Nat => (PMF.uniformOfFintype (Fin 6)).toMeasure)
    (ChoiceNoReplace [0, 1, 2] 2) (1 / 6) fun t _ ω => pairsOfThree (ω t) where
  fits t _ ω := (pairsOfThree_complete _).2 ⟨_, rfl⟩
  meas t := by
    letI : MeasurableSpace (List Nat) := ⊤
    exact (measurable_from_top (f := pairsOfThree)).comp (measurable_pi_apply t)
  indep := by
    letI : MeasurableSpace (List Nat) := ⊤
    exact iIndepFun_infinitePi (X := fun _ => pairsOfThree) fun _ => measurable_from_top
  pos := by norm_num
  prob t x hx := by
    obtain ⟨k, rfl⟩ := (pairsOfThree_complete x).1 hx
    have h1 : (Measure.infinitePi fun _ : Nat => (PMF.uniformOfFintype (Fin 6)).toMeasure) ((fun ω => ω t) ⁻¹' {k}) =
        (PMF.uniformOfFintype (Fin 6)).toMeasure {k} := by
      rw [← Measure.map_apply (measurable_pi_apply t) (MeasurableSet.singleton k), Measure.infinitePi_map_eval]
    rw [PMF.toMeasure_apply_singleton _ _ (MeasurableSet.singleton k), PMF.uniformOfFintype_apply] at h1
    calc (1 / 6 : ℝ) = (Measure.infinitePi fun _ : Nat => (PMF.uniformOfFintype (Fin 6)).toMeasure).real ((fun ω => ω t) ⁻¹' {k}) := by
          rw [Measure.real, h1]; simp
      _ ≤ _ := measureReal_mono fun ω hω => by
          simp only [Set.mem_preimage, Set.mem_singleton_iff] at hω
          simp [hω]

/-- All three pairs of three elements are found with probability one, four of them never. -/
example : (∀ᵐ ω ∂(Measure.infinitePi fun _ : Nat => (PMF.uniformOfFintype (Fin 6)).toMeasure), ∃ passes out,
    sampleUniqueSets [0, 1, 2] (fun t _ => pairsOfThree (ω t)) 3 2 passes = .ok (some out)) ∧
    ¬ ∀ᵐ ω ∂(Measure.infinitePi fun _ : Nat => (PMF.uniformOfFintype (Fin 6)).toMeasure), ∃ passes out,
      sampleUniqueSets [0, 1, 2] (fun t _ => pairsOfThree (ω t)) 4 2 passes = .ok (some out) :=
  ⟨((C89_exactly [0, 1, 2] (by decide) 3 2 (by decide) fairDraws_three).1).2 (by decide),
    fun h => absurd (((C89_exactly [0, 1, 2] (by decide) 4 2 (by decide) fairDraws_three).1).1 h) (by decide)⟩

end Lop.Props
