import Verif.Proofs.SampleSure
import Mathlib.Probability.UniformOn
import Mathlib.Probability.Distributions.Uniform

/-! # C89: sampling distinct subsets ends with probability one

The draws of all passes are independent; each is one of the possible results of
`np.random.choice(s, size_set, replace=False)`, with a distribution that gives each of them positive probability (the
uniform distribution is the one NumPy documents). -/

namespace Lop.Props

open Lop MeasureTheory Filter Topology
open scoped ENNReal

variable {α : Type*} [LinearOrder α]

/-- One draw. -/
abbrev OneDraw (s : List α) (size : Nat) := {row : List α // ChoiceNoReplace s size row}

instance oneDrawMeasurable (s : List α) (size : Nat) : MeasurableSpace (OneDraw s size) := ⊤

noncomputable instance oneDrawFintype (s : List α) (size : Nat) : Fintype (OneDraw s size) :=
  @Fintype.ofFinite _ (choice_finite s size)

/-- C89: for a feasible request the probability that `sample_unique_sets` has not returned after `T` passes is at most
`∑ (1 - P d)^T` over the possible draws `d`: it decays geometrically. -/
theorem C89_product_tail (s : List α) (hs : s.Nodup) (numSets size : Nat) (hfeas : numSets ≤ s.length.choose size)
    (μ : Measure (OneDraw s size)) [IsProbabilityMeasure μ] (T : Nat) :
    Measure.infinitePi (fun _ : ℕ × ℕ => μ)
      {ω | sampleUniqueSets s (fun t i => (ω (t, i)).1) numSets size T = .ok none} ≤
      ∑ d : OneDraw s size, (1 - μ {d}) ^ T := by
  classical
  -- enough different sets exist
  obtain ⟨goal, hgl, hgood⟩ := exists_fresh_rows hs (size := size) (uniq := []) ⟨by simp, by simp⟩ numSets
    (by simpa using hfeas)
  rw [List.nil_append] at hgood
  have hmem : ∀ g ∈ goal, ChoiceNoReplace s size g := fun g hg =>
    ⟨(hgood.good g hg).len, List.subperm_of_subset ((hgood.good g hg).inc.imp fun h => h.ne) (hgood.good g hg).mem⟩
  have hsub : {ω : ℕ × ℕ → OneDraw s size |
      sampleUniqueSets s (fun t i => (ω (t, i)).1) numSets size T = .ok none} ⊆
      ⋃ d ∈ (Finset.univ : Finset (OneDraw s size)),
        Set.pi ((Finset.range T).map ⟨fun t => (t, 0), fun a b h => by simpa using h⟩ : Finset (ℕ × ℕ))
          (fun _ => {d}ᶜ) := by
    intro ω hω
    simp only [Set.mem_setOf_eq] at hω
    have hsz : size ≤ s.length := by
      have := (ω (0, 0)).2
      rw [← this.1]; exact this.2.length_le
    by_contra hc
    obtain ⟨out, hout⟩ := loop_finishes (rng := fun t i => (ω (t, i)).1) (numSets := numSets) hsz goal hgood.nodup hgl T 0 []
      (by
        intro g hg
        right
        by_contra hno
        refine hc (Set.mem_iUnion₂.mpr ⟨⟨g, hmem g hg⟩, Finset.mem_univ _, fun x hx => ?_⟩)
        obtain ⟨t, ht, rfl⟩ := Finset.mem_map.mp hx
        intro heq
        refine hno ⟨t, Nat.zero_le _, by simpa using ht, ?_⟩
        have heq' : (ω (t, 0)).1 = g := congrArg Subtype.val heq
        simp only [heq']
        exact List.Pairwise.insertionSort_eq ((hgood.good g hg).inc.imp le_of_lt))
    rw [sampleUniqueSets, hout] at hω
    simp at hω
  refine (measure_mono hsub).trans ((measure_biUnion_finset_le _ _).trans (Finset.sum_le_sum fun d _ => ?_))
  rw [Measure.infinitePi_pi (t := fun _ => {d}ᶜ) _ (fun _ _ => MeasurableSpace.measurableSet_top)]
  simp only [Finset.prod_const, Finset.card_map, Finset.card_range]
  rw [prob_compl_eq_one_sub MeasurableSpace.measurableSet_top]

/-- C89: for a feasible request `sample_unique_sets` returns with probability one. -/
theorem C89_product_almost_surely (s : List α) (hs : s.Nodup) (numSets size : Nat) (hfeas : numSets ≤ s.length.choose size)
    (μ : Measure (OneDraw s size)) [IsProbabilityMeasure μ] (hμ : ∀ d, μ {d} ≠ 0) :
    ∀ᵐ ω ∂(Measure.infinitePi fun _ : ℕ × ℕ => μ),
      ∃ T out, sampleUniqueSets s (fun t i => (ω (t, i)).1) numSets size T = .ok (some out) := by
  rw [ae_iff]
  have hle : ∀ T, Measure.infinitePi (fun _ : ℕ × ℕ => μ)
      {ω | ¬ ∃ T out, sampleUniqueSets s (fun t i => (ω (t, i)).1) numSets size T = .ok (some out)} ≤
      ∑ d : OneDraw s size, (1 - μ {d}) ^ T := by
    intro T
    refine (measure_mono ?_).trans (C89_product_tail s hs numSets size hfeas μ T)
    intro ω hω
    simp only [Set.mem_setOf_eq, not_exists] at hω ⊢
    have hsz : size ≤ s.length := by
      have := (ω (0, 0)).2
      rw [← this.1]; exact this.2.length_le
    have hne : ∀ (T t : Nat) (uniq : List (List α)) (e : PyErr),
        sampleUniqueLoop s (fun t i => (ω (t, i)).1) numSets size T t uniq ≠ .error e := by
      intro T
      induction T with
      | zero => intro t uniq e; unfold sampleUniqueLoop; split <;> simp
      | succ T ih =>
        intro t uniq e
        unfold sampleUniqueLoop
        split
        · simp only
          rw [if_neg (by omega)]
          exact ih _ _ _
        · simp
    cases hc : sampleUniqueSets s (fun t i => (ω (t, i)).1) numSets size T with
    | error e => exact absurd hc (hne T 0 [] e)
    | ok o =>
      cases o with
      | none => rfl
      | some out => exact absurd hc (hω T out)
  have hlim : Tendsto (fun T => ∑ d : OneDraw s size, (1 - μ {d}) ^ T) atTop (𝓝 0) := by
    have : (0 : ℝ≥0∞) = ∑ d : OneDraw s size, 0 := by simp
    rw [this]
    refine tendsto_finset_sum _ fun d _ => ?_
    exact ENNReal.tendsto_pow_atTop_nhds_zero_of_lt_one
      (ENNReal.sub_lt_self ENNReal.one_ne_top one_ne_zero (hμ d))
  exact le_antisymm (ge_of_tendsto' hlim hle) zero_le

/-- The hypotheses are met by the uniform distribution over the draws of two of three points, with all three pairs
requested. -/
example : ∃ μ : Measure (OneDraw [0, 1, (2 : Nat)] 2), IsProbabilityMeasure μ ∧ (∀ d, μ {d} ≠ 0) ∧
    [0, 1, (2 : Nat)].Nodup ∧ 3 ≤ [0, 1, (2 : Nat)].length.choose 2 := by
  haveI : Nonempty (OneDraw [0, 1, (2 : Nat)] 2) := ⟨⟨[2, 0], rfl, by decide⟩⟩
  refine ⟨(PMF.uniformOfFintype (OneDraw [0, 1, (2 : Nat)] 2)).toMeasure, inferInstance, fun d => ?_, by decide, by decide⟩
  rw [PMF.toMeasure_apply_singleton _ _ MeasurableSpace.measurableSet_top, PMF.uniformOfFintype_apply]
  simp

end Lop.Props
