import Verif.Proofs.SampleSets
import Mathlib.Probability.ProductMeasure
import Mathlib.Analysis.SpecificLimits.Basic

/-! # Helper lemmas: `sample_unique_sets` finishes with probability one -/

namespace Lop

variable {α : Type*} [LinearOrder α]

/-- The possible results of one draw without replacement are finitely many. -/
theorem choice_finite (s : List α) (size : Nat) : Finite {row : List α // ChoiceNoReplace s size row} := by
  refine Set.Finite.subset (List.finite_toSet (s.sublists.flatMap List.permutations)) ?_ |>.to_subtype
  rintro row ⟨-, l, hl1, hl2⟩
  show row ∈ s.sublists.flatMap List.permutations
  rw [List.mem_flatMap]
  exact ⟨l, List.mem_sublists.mpr hl2, List.mem_permutations.mpr hl1.symm⟩

/-- If the first draws of the passes run through enough different sets, the loop ends. -/
theorem loop_finishes {s : List α} {rng : Nat → Nat → List α} {numSets size : Nat} (hsz : size ≤ s.length)
    (goal : List (List α)) (hnd : goal.Nodup) (hlen : goal.length = numSets) :
    ∀ (T t : Nat) (uniq : List (List α)),
      (∀ g ∈ goal, g ∈ uniq ∨ ∃ t', t ≤ t' ∧ t' < t + T ∧ (rng t' 0).insertionSort (· ≤ ·) = g) →
      ∃ out, sampleUniqueLoop s rng numSets size T t uniq = .ok (some out) := by
  intro T
  induction T with
  | zero =>
    intro t uniq h
    unfold sampleUniqueLoop
    have hsub : goal ⊆ uniq := fun g hg => (h g hg).resolve_right (by rintro ⟨t', h1, h2, -⟩; omega)
    have := (List.subperm_of_subset hnd hsub).length_le
    rw [if_neg (by omega)]
    exact ⟨_, rfl⟩
  | succ T ih =>
    intro t uniq h
    unfold sampleUniqueLoop
    by_cases hlt : uniq.length < numSets
    · rw [if_pos hlt]
      simp only
      rw [if_neg (by omega)]
      apply ih
      intro g hg
      rcases h g hg with h1 | ⟨t', h1, h2, h3⟩
      · left
        unfold samplePass
        rw [mem_uniqueRows]
        exact List.mem_append_left _ h1
      · by_cases ht : t' = t
        · left
          subst ht
          unfold samplePass
          rw [mem_uniqueRows]
          refine List.mem_append_right _ (List.mem_map.mpr ⟨0, List.mem_range.mpr ?_, h3⟩)
          have := toSample_ge numSets uniq.length
          omega
        · exact Or.inr ⟨t', by omega, by omega, h3⟩
    · rw [if_neg hlt]
      exact ⟨_, rfl⟩

end Lop
