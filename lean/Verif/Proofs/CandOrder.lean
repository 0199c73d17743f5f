import Verif.Spec.CandOrder
import Verif.Proofs.Select
import Mathlib.Data.Finset.Card
import Mathlib.Order.Disjoint

/-! # Helper lemmas: the same candidates in another order -/

namespace Lop

open Lop.Spec

variable {π : Equiv.Perm Nat}

@[simp] theorem mem_renumSet {s : Finset Nat} {i : Nat} : π i ∈ renumSet π s ↔ i ∈ s := by
  simp [renumSet]

theorem mem_renumSet' {s : Finset Nat} {k : Nat} : k ∈ renumSet π s ↔ ∃ i ∈ s, π i = k := by
  rw [renumSet, Finset.mem_map]
  rfl

theorem renumSet_ext {s t : Finset Nat} (h : ∀ i, π i ∈ t ↔ i ∈ s) : t = renumSet π s := by
  ext k
  obtain ⟨i, rfl⟩ := π.surjective k
  rw [h, mem_renumSet]

theorem renumSet_erase (s : Finset Nat) (i : Nat) : (renumSet π s).erase (π i) = renumSet π (s.erase i) :=
  renumSet_ext fun j => by simp

theorem renumSet_union (s t : Finset Nat) : renumSet π s ∪ renumSet π t = renumSet π (s ∪ t) :=
  renumSet_ext fun j => by simp

theorem renumSet_sdiff (s t : Finset Nat) : renumSet π s \ renumSet π t = renumSet π (s \ t) :=
  renumSet_ext fun j => by simp

theorem renumSet_insert (s : Finset Nat) (i : Nat) : insert (π i) (renumSet π s) = renumSet π (insert i s) :=
  renumSet_ext fun j => by simp

theorem renumSet_list (l : List Nat) : (l.map π).toFinset = renumSet π l.toFinset :=
  renumSet_ext fun j => by simp

theorem renumSet_empty {s : Finset Nat} : renumSet π s = ∅ ↔ s = ∅ := by simp [renumSet]

theorem renumSet_range {N : Nat} (hπ : ∀ i, π i < N ↔ i < N) : Finset.range N = renumSet π (Finset.range N) :=
  renumSet_ext fun j => by simp [hπ]

theorem renumbered_lt {K : Type*} {l l' : List K} (h : Renumbered π l l') (i : Nat) : π i < l'.length ↔ i < l.length := by
  have := h i
  rw [← not_iff_not, not_lt, not_lt, ← List.getElem?_eq_none_iff, ← List.getElem?_eq_none_iff, this]

theorem renumbered_length {K : Type*} {l l' : List K} (h : Renumbered π l l') : l'.length = l.length := by
  have : Finset.range l'.length = renumSet π (Finset.range l.length) := renumSet_ext fun i => by simp [renumbered_lt h]
  have := congrArg Finset.card this
  simpa [renumSet] using this

theorem selectLoop_renum {N : Nat} (hπ : ∀ i, π i < N ↔ i < N) {L L' : Learner} (hp : L.pair = none) (hp' : L'.pair = none)
    (hg : SameGreedy π N L L') (pf : Bool) (k : Nat) {prev : Finset Nat} (hprev : prev ⊆ Finset.range N) (fuel : Nat) :
    ∀ (t : Nat) (sel : List Nat) (pref : Finset Nat) (alln : Option (Finset Nat)), (∀ i ∈ sel, i < N) →
      pref ⊆ Finset.range N → Disjoint pref (prev ∪ sel.toFinset) →
      (∀ r ∈ alln, pref = ∅ ∧ r ⊆ Finset.range N ∧ Disjoint r (prev ∪ sel.toFinset)) →
      selectLoop L' pf N k (renumSet π prev) fuel t (sel.map π) (renumSet π pref) (alln.map (renumSet π)) =
        (selectLoop L pf N k prev fuel t sel pref alln).map (List.map π) := by
  induction fuel with
  | zero =>
    intro t sel pref alln _ _ _ _
    simp only [selectLoop, List.length_map]
    split <;> rfl
  | succ fuel ih =>
    intro t sel pref alln hsel hpref hd ha
    have hpair : ∀ c : Prop, [Decidable c] → (if c then L.pair else none) = none := fun c _ => by rw [hp]; simp
    have hpair' : ∀ c : Prop, [Decidable c] → (if c then L'.pair else none) = none := fun c _ => by rw [hp']; simp
    have hseen : prev ∪ sel.toFinset ⊆ Finset.range N :=
      Finset.union_subset hprev fun i hi => Finset.mem_range.2 (hsel i (List.mem_toFinset.1 hi))
    have hnew : ∀ {s : Finset Nat} {i : Nat}, Disjoint s (prev ∪ sel.toFinset) → i ∈ s →
        Disjoint (s.erase i) (prev ∪ (sel ++ [i]).toFinset) := by
      intro s i h hi
      rw [Finset.disjoint_left] at h ⊢
      intro j hj
      have := h (Finset.mem_of_mem_erase hj)
      have hne := Finset.ne_of_mem_erase hj
      simp only [Finset.mem_union, List.mem_toFinset, List.mem_append, List.mem_singleton, not_or] at this ⊢
      exact ⟨this.1, this.2, hne⟩
    simp only [selectLoop, List.length_map, hpair, hpair', ne_eq, renumSet_empty, renumSet_list, renumSet_union]
    by_cases h1 : sel.length < k
    · simp only [h1, if_true]
      by_cases h2 : pref = ∅
      · simp only [h2, not_true_eq_false, if_false]
        have er : (alln.map (renumSet π)).getD ((Finset.range N \ renumSet π prev) \ renumSet π sel.toFinset) =
            renumSet π (alln.getD ((Finset.range N \ prev) \ sel.toFinset)) := by
          cases alln with
          | some r => rfl
          | none =>
            simp only [Option.map_none, Option.getD_none]
            nth_rewrite 1 [renumSet_range hπ]
            rw [renumSet_sdiff, renumSet_sdiff]
        rw [er]
        set r := alln.getD ((Finset.range N \ prev) \ sel.toFinset) with hr
        have hrs : r ⊆ Finset.range N ∧ Disjoint r (prev ∪ sel.toFinset) := by
          cases alln with
          | some r' => exact (ha r' rfl).2
          | none =>
            simp only [Option.getD_none] at hr
            refine ⟨hr ▸ Finset.sdiff_subset.trans Finset.sdiff_subset, ?_⟩
            rw [Finset.disjoint_left]
            intro j hj
            rw [hr] at hj
            simp only [Finset.mem_sdiff] at hj
            simp only [Finset.mem_union, not_or]
            exact ⟨hj.1.2, hj.2⟩
        simp only [renumSet_empty]
        by_cases h3 : r = ∅
        · simp only [h3, if_true]
          rfl
        · simp only [h3, if_false]
          rw [hg t r _ hrs.1 hseen hrs.2]
          cases hgr : L.greedy t r (prev ∪ sel.toFinset) with
          | error e => rfl
          | ok i =>
            simp only [Except.map, mem_renumSet]
            by_cases h4 : i ∈ r
            · simp only [h4, if_true, renumSet_erase]
              have := ih (t + 1) (sel ++ [i]) pref (some (r.erase i)) (by
                  intro j hj
                  rcases List.mem_append.1 hj with h | h
                  · exact hsel j h
                  · rw [List.mem_singleton.1 h]; exact Finset.mem_range.1 (hrs.1 h4)) hpref (by rw [h2]; simp) (by
                  rintro s ⟨rfl⟩
                  exact ⟨h2, (Finset.erase_subset _ _).trans hrs.1, hnew hrs.2 h4⟩)
              rw [h2, List.map_append] at this
              exact this
            · simp only [h4, if_false]
      · simp only [h2, not_false_eq_true, if_true]
        rw [hg t pref _ hpref hseen hd]
        cases hgr : L.greedy t pref (prev ∪ sel.toFinset) with
        | error e => rfl
        | ok i =>
          simp only [Except.map, mem_renumSet]
          by_cases h4 : i ∈ pref
          · simp only [h4, if_true, renumSet_erase]
            have := ih (t + 1) (sel ++ [i]) (pref.erase i) alln (by
                intro j hj
                rcases List.mem_append.1 hj with h | h
                · exact hsel j h
                · rw [List.mem_singleton.1 h]; exact Finset.mem_range.1 (hpref h4))
              ((Finset.erase_subset _ _).trans hpref) (hnew hd h4) (fun r hr => absurd (ha r hr).1 h2)
            rw [List.map_append] at this
            exact this
          · simp only [h4, if_false]
    · simp only [h1, if_false]
      rfl

section
variable {K : Type*} [LinearOrder K]

/-- Two choices of a best member, in old and new numbers, are the same if there is just one. -/
theorem choose_renum {R R' : Nat → Nat → Prop} {S : Finset Nat} (hR : ∀ i ∈ S, ∀ j ∈ S, R' (π i) (π j) → R i j)
    (hanti : ∀ i ∈ S, ∀ j ∈ S, R i j → R j i → i = j) {x x' : Except PyErr Nat}
    (hx : ∃ i ∈ S, x = .ok i ∧ ∀ j ∈ S, R i j)
    (hx' : ∃ i ∈ renumSet π S, x' = .ok i ∧ ∀ j ∈ renumSet π S, R' i j) : x' = x.map π := by
  obtain ⟨i, hi, rfl, hm⟩ := hx
  obtain ⟨k, hk, rfl, hm'⟩ := hx'
  obtain ⟨j, hj, rfl⟩ := mem_renumSet'.1 hk
  rw [hanti i hi j hj (hm j hj) (hR j hj i hi (hm' (π i) (mem_renumSet.2 hi)))]
  rfl

theorem renumSet_nonempty {s : Finset Nat} : (renumSet π s).Nonempty ↔ s.Nonempty := by simp [renumSet]

theorem renumSet_sub {N N' : Nat} (h : ∀ i, π i < N' ↔ i < N) {s : Finset Nat} (hs : s ⊆ Finset.range N) :
    renumSet π s ⊆ Finset.range N' := by
  intro k hk
  obtain ⟨i, hi, rfl⟩ := mem_renumSet'.1 hk
  exact Finset.mem_range.2 ((h i).2 (Finset.mem_range.1 (hs hi)))

theorem valueGE_anti {mu : List K} (hn : mu.Nodup) {i j : Nat} (hi : i < mu.length) (hj : j < mu.length)
    (h1 : ValueGE mu i j) (h2 : ValueGE mu j i) : i = j := by
  have e1 := List.getElem?_eq_getElem hi
  have e2 := List.getElem?_eq_getElem hj
  exact (hn.getElem_inj_iff).1 (le_antisymm (h2 _ _ e2 e1) (h1 _ _ e1 e2))

theorem selectBest_renum {ord ord' : Finset Nat → List Nat} (hord : Enumerates ord) (hord' : Enumerates ord')
    {mu mu' : List K} (hmu : Renumbered π mu mu') (hn : mu.Nodup) {prefer prev : Finset Nat}
    (hpref : prefer ⊆ Finset.range mu.length) :
    selectBest ord' mu' (renumSet π prefer) (renumSet π prev) = (selectBest ord mu prefer prev).map π := by
  have hN := renumbered_length hmu
  have hlt := renumbered_lt hmu
  have hr : Finset.range mu'.length = renumSet π (Finset.range mu.length) := renumSet_ext fun i => by simp [hlt]
  by_cases hne : Finset.range mu.length \ prev = ∅
  · have h1 : prefer \ prev = ∅ := by
      rw [Finset.sdiff_eq_empty_iff_subset] at hne ⊢
      exact hpref.trans hne
    simp only [selectBest, hr, renumSet_sdiff, h1, hne, renumSet_empty, if_true]
    rfl
  · obtain ⟨i, h1, h2, h3⟩ := selectBest_ok hord mu prefer prev hpref hne
    obtain ⟨i', h1', h2', h3'⟩ := selectBest_ok hord' mu' (renumSet π prefer) (renumSet π prev) (renumSet_sub hlt hpref)
      (by rw [hr, renumSet_sdiff]; exact fun h => hne (renumSet_empty.1 h))
    rw [hr, renumSet_sdiff, renumSet_sdiff, ← apply_ite (renumSet π)] at h2' h3'
    simp only [renumSet_empty] at h2' h3'
    have hS : (if prefer \ prev = ∅ then Finset.range mu.length \ prev else prefer \ prev) ⊆ Finset.range mu.length := by
      split
      · exact Finset.sdiff_subset
      · exact Finset.sdiff_subset.trans hpref
    refine choose_renum (R := ValueGE mu) (R' := ValueGE mu') ?_ ?_ ⟨i, h2, h1, h3⟩ ⟨i', h2', h1', h3'⟩
    · intro a _ b _ h x y hx hy
      exact h x y ((hmu a).trans hx) ((hmu b).trans hy)
    · intro a ha b hb
      exact valueGE_anti hn (Finset.mem_range.1 (hS ha)) (Finset.mem_range.1 (hS hb))

end

end Lop
