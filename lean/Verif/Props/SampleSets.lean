import Verif.Proofs.SampleSets
import Mathlib.Tactic.NormNum
import Mathlib.Tactic.Linarith

/-! # C12, C13: sampling distinct subsets -/

namespace Lop.Props

open Lop

variable {α : Type*} [LinearOrder α]

/-- C12: whenever `sample_unique_sets` returns (after any number of passes, for any draws allowed by
`np.random.choice(..., replace=False)`), it returns exactly `num_sets` rows; each row is strictly
increasing, has `size_set` entries, all from `s`; and no two rows are the same set. -/
theorem C12_unique_sets_sound (s : List α) (hs : s.Nodup) (rng : Nat → Nat → List α)
    (numSets size fuel : Nat) (hr : ∀ t i, ChoiceNoReplace s size (rng t i))
    (out : List (List α)) (h : sampleUniqueSets s rng numSets size fuel = .ok (some out)) :
    out.length = numSets ∧
    (∀ row ∈ out, row.Pairwise (· < ·) ∧ row.length = size ∧ ∀ x ∈ row, x ∈ s) ∧
    out.Pairwise (fun a b => a.toFinset ≠ b.toFinset) := by
  obtain ⟨hg, hl⟩ := loop_some hs hr fuel 0 [] out ⟨by simp, by simp⟩ h
  refine ⟨hl, fun r hr => ⟨(hg.good r hr).inc, (hg.good r hr).len, (hg.good r hr).mem⟩, ?_⟩
  refine hg.nodup.imp_of_mem ?_
  intro a b ha hb hne heq
  exact hne ((hg.good a ha).eq_of_toFinset (hg.good b hb) heq)

/-- C12 (error branch): asking for a non-zero number of sets larger than the source raises. -/
theorem C12_unique_sets_too_large (s : List α) (rng : Nat → Nat → List α) (numSets size fuel : Nat)
    (hn : 0 < numSets) (hsz : s.length < size) :
    sampleUniqueSets s rng numSets size (fuel + 1) = .error .valueError := by
  unfold sampleUniqueSets sampleUniqueLoop
  simp [hn, hsz]

example : sampleUniqueSets [0, 1, 2, (3 : Nat)] (fun _ i => if i = 0 then [2, 0] else [3, 1]) 2 2 1
    = .ok (some [[0, 2], [1, 3]]) := by decide +kernel
example : ∀ (_ : Nat) (i : Nat), ChoiceNoReplace [0, 1, 2, (3 : Nat)] 2 (if i = 0 then [2, 0] else [3, 1]) := by
  intro _ i
  split
  · exact ⟨rfl, by decide⟩
  · exact ⟨rfl, by decide⟩

/-- C13 is violated for infeasible requests: if more sets are requested than exist, the loop never
ends, whatever is drawn. -/
theorem C13_infeasible_request_never_returns (s : List α) (hs : s.Nodup) (rng : Nat → Nat → List α)
    (numSets size : Nat) (hr : ∀ t i, ChoiceNoReplace s size (rng t i))
    (hsz : size ≤ s.length) (hbig : s.length.choose size < numSets) (fuel : Nat) :
    sampleUniqueSets s rng numSets size fuel = .ok none :=
  loop_infeasible hs hr hbig hsz fuel 0 [] ⟨by simp, by simp⟩

example : [0, 1, (2 : Nat)].length.choose 2 < 4 := by decide

/-- C13, what holds: for every feasible request the loop is never stuck.  After any `t` passes
with any draws, there are allowed continuations of the draws with which the very next pass completes
it.  Missing for the full claim: infeasible requests (above).  With random draws the loop ends with
probability one, `C89_finishes`. -/
theorem C13_feasible_request_can_finish_partial (s : List α) (hs : s.Nodup) (numSets size : Nat)
    (hfeas : numSets ≤ s.length.choose size)
    (rng : Nat → Nat → List α) (hr : ∀ t i, ChoiceNoReplace s size (rng t i)) (t : Nat) :
    ∃ rng' : Nat → Nat → List α, (∀ u i, ChoiceNoReplace s size (rng' u i)) ∧
      (∀ u < t, ∀ i, rng' u i = rng u i) ∧
      ∃ out, sampleUniqueSets s rng' numSets size (t + 1) = .ok (some out) := by
  have hdraw : size ≤ s.length := by
    have := hr 0 0
    rw [← this.1]; exact this.2.length_le
  -- general statement for an intermediate state
  suffices H : ∀ (n t0 : Nat) (uniq : List (List α)), GoodRows s size uniq →
      ∃ rng' : Nat → Nat → List α, (∀ u i, ChoiceNoReplace s size (rng' u i)) ∧
        (∀ u < t0 + n, ∀ i, rng' u i = rng u i) ∧
        ∃ out, sampleUniqueLoop s rng' numSets size (n + 1) t0 uniq = .ok (some out) by
    have := H t 0 [] ⟨by simp, by simp⟩
    simpa [sampleUniqueSets] using this
  intro n
  induction n with
  | zero =>
    intro t0 uniq hg
    by_cases hlt : uniq.length < numSets
    · obtain ⟨fresh, hfl, hfg⟩ := exists_fresh_rows hs hg (numSets - uniq.length) (by omega)
      refine ⟨fun u i => if u = t0 then (if h : i < fresh.length then fresh[i] else rng u i) else rng u i, ?_, ?_, ?_⟩
      · intro u i
        by_cases hu : u = t0
        · by_cases hi : i < fresh.length
          · simp only [hu, ↓reduceIte, hi, ↓reduceDIte]
            have hgood := hfg.good fresh[i] (List.mem_append_right _ (List.getElem_mem _))
            exact ⟨hgood.len, List.subperm_of_subset (hgood.inc.imp fun h => h.ne) hgood.mem⟩
          · simp only [hu, ↓reduceIte, hi, ↓reduceDIte]; exact hr _ _
        · simp only [hu, ↓reduceIte]; exact hr _ _
      · intro u hu i
        simp [show u ≠ t0 by omega]
      · unfold sampleUniqueLoop
        rw [if_pos hlt]
        simp only
        rw [if_neg (by omega)]
        unfold sampleUniqueLoop
        rw [if_neg]
        · exact ⟨_, rfl⟩
        · push Not
          have hsub : uniq ++ fresh ⊆ uniq ++ (List.range (toSample numSets uniq.length)).map
              (fun i => ((if t0 = t0 then (if h : i < fresh.length then fresh[i] else rng t0 i) else rng t0 i)).insertionSort (· ≤ ·)) := by
            intro r hrm
            rcases List.mem_append.mp hrm with h1 | h1
            · exact List.mem_append_left _ h1
            · apply List.mem_append_right
              obtain ⟨i, hi, rfl⟩ := List.mem_iff_getElem.mp h1
              rw [List.mem_map]
              refine ⟨i, ?_, ?_⟩
              · rw [List.mem_range]
                have := toSample_ge numSets uniq.length
                omega
              · simp only [↓reduceIte, hi, ↓reduceDIte]
                apply List.Pairwise.insertionSort_eq
                exact (hfg.good fresh[i] (List.mem_append_right _ (List.getElem_mem _))).inc.imp fun h => h.le
          have := uniqueRows_length_ge _ _ hsub hfg.nodup
          rw [List.length_append] at this
          have h2 : numSets ≤ uniq.length + fresh.length := by omega
          unfold samplePass
          simp only [if_true] at this ⊢
          exact h2.trans this
    · refine ⟨rng, hr, fun _ _ _ => rfl, ?_⟩
      unfold sampleUniqueLoop
      rw [if_neg hlt]
      exact ⟨_, rfl⟩
  | succ n ih =>
    intro t0 uniq hg
    by_cases hlt : uniq.length < numSets
    · obtain ⟨rng', h1, h2, out, h3⟩ := ih (t0 + 1) (samplePass (rng t0) numSets uniq) (hg.pass hs (hr t0))
      refine ⟨rng', h1, fun u hu => h2 u (by omega), out, ?_⟩
      unfold sampleUniqueLoop
      rw [if_pos hlt]
      simp only
      rw [if_neg (by omega)]
      have : rng' t0 = rng t0 := funext fun i => h2 t0 (by omega) i
      rw [this]
      exact h3
    · refine ⟨rng, hr, fun _ _ _ => rfl, ?_⟩
      unfold sampleUniqueLoop
      rw [if_neg hlt]
      exact ⟨_, rfl⟩

/-- C13: both library callers request a feasible number of sets, for every input size. -/
theorem C13_callers_feasible :
    (∀ numQ N numAlts, repNumQ numQ N numAlts ≤ N.choose numAlts) ∧
    (∀ C, sampleQsCount C ≤ C) := by
  constructor
  · intro numQ N numAlts
    exact min_le_right _ _
  · intro C
    unfold sampleQsCount
    simp only
    apply Nat.floor_le_of_le
    split
    · exact min_le_right _ _
    · refine (min_le_left _ _).trans ?_
      have : (0 : ℚ) ≤ C := Nat.cast_nonneg C
      linarith

/-- C13: exactly how many queries `HumanChoiceUser.sample_Qs` asks for: all of them up to thirty, thirty up to sixty,
and then half of them (rounded down) but never more than 60000. -/
theorem C13_sample_qs_count (C : Nat) :
    (C ≤ 30 → sampleQsCount C = C) ∧ (30 ≤ C → C < 60 → sampleQsCount C = 30) ∧
      (60 ≤ C → C ≤ 120000 → sampleQsCount C = C / 2) ∧ (120000 ≤ C → sampleQsCount C = 60000) := by
  refine ⟨fun h => ?_, fun h h' => ?_, fun h h' => ?_, fun h => ?_⟩ <;> unfold sampleQsCount <;> simp only
  · have hc : (C : ℚ) ≤ 30 := by exact_mod_cast h
    rw [if_pos (lt_of_le_of_lt (min_le_left _ _) (by linarith)), min_eq_right hc, Nat.floor_natCast]
  · have hc : (30 : ℚ) ≤ C := by exact_mod_cast h
    have hc' : (C : ℚ) < 60 := by exact_mod_cast h'
    rw [if_pos (lt_of_le_of_lt (min_le_left _ _) (by linarith)), min_eq_left hc]
    norm_num
  · have hc : (60 : ℚ) ≤ C := by exact_mod_cast h
    have hc' : (C : ℚ) ≤ 120000 := by exact_mod_cast h'
    rw [min_eq_left (by linarith), if_neg (by linarith), ← Nat.mul_cast_floor_div_cancel two_ne_zero]
    simp
  · have hc : (120000 : ℚ) ≤ C := by exact_mod_cast h
    rw [min_eq_right (by linarith), if_neg (by norm_num)]
    norm_num

example : sampleQsCount 100 = 50 := by unfold sampleQsCount; norm_num
example : sampleQsCount 10 = 10 := by unfold sampleQsCount; norm_num
example : (3 : Nat) ≤ [0, 1, (2 : Nat)].length.choose 2 := by decide

end Lop.Props
