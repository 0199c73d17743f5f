import Verif.Model.SampleSets
import Mathlib.Data.Finset.Powerset
import Mathlib.Data.Finset.Sort
import Mathlib.Data.List.NodupEquivFin
import Mathlib.Data.Fintype.Card
import Mathlib.Tactic.Linarith

namespace Lop

variable {α : Type*} [LinearOrder α]

/-- A row as delivered by the sampler: strictly increasing, right size, entries from `s`. -/
structure GoodRow (s : List α) (size : Nat) (row : List α) : Prop where
  inc : row.Pairwise (· < ·)
  len : row.length = size
  mem : ∀ x ∈ row, x ∈ s

/-- Loop invariant. -/
structure GoodRows (s : List α) (size : Nat) (rows : List (List α)) : Prop where
  good : ∀ row ∈ rows, GoodRow s size row
  nodup : rows.Nodup

theorem goodRow_of_draw {s : List α} (hs : s.Nodup) {size : Nat} {d : List α}
    (h : ChoiceNoReplace s size d) : GoodRow s size (d.insertionSort (· ≤ ·)) := by
  obtain ⟨hl, hsub⟩ := h
  have hnd : d.Nodup := by
    obtain ⟨l, hl1, hl2⟩ := hsub
    exact hl1.nodup_iff.mp (hl2.nodup hs)
  refine ⟨?_, by simpa using hl, ?_⟩
  · have h1 : (d.insertionSort (· ≤ ·)).Pairwise (· ≤ ·) := List.pairwise_insertionSort _ _
    have h2 : (d.insertionSort (· ≤ ·)).Nodup := (List.perm_insertionSort _ _).nodup_iff.mpr hnd
    exact (h1.and h2).imp fun ⟨a, b⟩ => lt_of_le_of_ne a b
  · intro x hx
    exact hsub.subset ((List.perm_insertionSort _ _).mem_iff.mp hx)

theorem mem_uniqueRows {rows : List (List α)} {r : List α} : r ∈ uniqueRows rows ↔ r ∈ rows := by
  unfold uniqueRows
  rw [(List.perm_insertionSort _ _).mem_iff, List.mem_dedup]

theorem uniqueRows_nodup (rows : List (List α)) : (uniqueRows rows).Nodup :=
  (List.perm_insertionSort _ _).nodup_iff.mpr (List.nodup_dedup _)

theorem GoodRows.pass {s : List α} (hs : s.Nodup) {size numSets : Nat} {uniq : List (List α)}
    (h : GoodRows s size uniq) {draw : Nat → List α} (hd : ∀ i, ChoiceNoReplace s size (draw i)) :
    GoodRows s size (samplePass draw numSets uniq) := by
  refine ⟨?_, uniqueRows_nodup _⟩
  intro row hrow
  unfold samplePass at hrow
  rw [mem_uniqueRows, List.mem_append] at hrow
  rcases hrow with h1 | h1
  · exact h.good row h1
  · obtain ⟨i, _, rfl⟩ := List.mem_map.mp h1
    exact goodRow_of_draw hs (hd i)

theorem GoodRow.eq_of_toFinset {s : List α} {size : Nat} {a b : List α} (ha : GoodRow s size a)
    (hb : GoodRow s size b) (h : a.toFinset = b.toFinset) : a = b := by
  have hp : a.Perm b := List.perm_of_nodup_nodup_toFinset_eq
    (ha.inc.imp fun h => h.ne) (hb.inc.imp fun h => h.ne) h
  exact hp.eq_of_pairwise (fun x y _ _ h1 h2 => le_antisymm h1.le h2.le) ha.inc hb.inc

/-- There are at most `n choose size` rows. -/
theorem GoodRows.length_le {s : List α} {size : Nat} {rows : List (List α)}
    (h : GoodRows s size rows) : rows.length ≤ s.length.choose size := by
  classical
  have hinj : Set.InjOn List.toFinset {r | r ∈ rows} := fun a ha b hb hab =>
    (h.good a ha).eq_of_toFinset (h.good b hb) hab
  have h1 : (rows.map List.toFinset).Nodup := List.Nodup.map_on
    (fun a ha b hb hab => hinj ha hb hab) h.nodup
  have h2 : (rows.map List.toFinset).toFinset ⊆ s.toFinset.powersetCard size := by
    intro f hf
    rw [List.mem_toFinset, List.mem_map] at hf
    obtain ⟨r, hr, rfl⟩ := hf
    rw [Finset.mem_powersetCard]
    have g := h.good r hr
    refine ⟨?_, ?_⟩
    · intro x hx
      rw [List.mem_toFinset] at *
      exact g.mem x hx
    · rw [List.toFinset_card_of_nodup (g.inc.imp fun h => h.ne), g.len]
  have h3 := Finset.card_le_card h2
  rw [List.toFinset_card_of_nodup h1, List.length_map, Finset.card_powersetCard] at h3
  exact h3.trans (Nat.choose_le_choose _ (List.toFinset_card_le s))

theorem loop_some {s : List α} (hs : s.Nodup) {rng : Nat → Nat → List α} {numSets size : Nat}
    (hr : ∀ t i, ChoiceNoReplace s size (rng t i)) :
    ∀ (fuel t : Nat) (uniq out : List (List α)), GoodRows s size uniq →
      sampleUniqueLoop s rng numSets size fuel t uniq = .ok (some out) →
      GoodRows s size out ∧ out.length = numSets := by
  intro fuel
  induction fuel with
  | zero =>
    intro t uniq out hg h
    unfold sampleUniqueLoop at h
    split at h
    · simp at h
    · simp only [Except.ok.injEq, Option.some.injEq] at h
      subst h
      refine ⟨⟨fun r hr => hg.good r (List.mem_of_mem_take hr), hg.nodup.sublist (List.take_sublist _ _)⟩, ?_⟩
      rw [List.length_take]; omega
  | succ fuel ih =>
    intro t uniq out hg h
    unfold sampleUniqueLoop at h
    split at h
    · simp only at h
      split at h
      · simp at h
      · exact ih _ _ _ (hg.pass hs (hr t)) h
    · simp only [Except.ok.injEq, Option.some.injEq] at h
      subst h
      refine ⟨⟨fun r hr => hg.good r (List.mem_of_mem_take hr), hg.nodup.sublist (List.take_sublist _ _)⟩, ?_⟩
      rw [List.length_take]; omega

theorem loop_infeasible {s : List α} (hs : s.Nodup) {rng : Nat → Nat → List α} {numSets size : Nat}
    (hr : ∀ t i, ChoiceNoReplace s size (rng t i)) (hbig : s.length.choose size < numSets)
    (hsize : size ≤ s.length) :
    ∀ (fuel t : Nat) (uniq : List (List α)), GoodRows s size uniq →
      sampleUniqueLoop s rng numSets size fuel t uniq = .ok none := by
  intro fuel
  induction fuel with
  | zero =>
    intro t uniq hg
    unfold sampleUniqueLoop
    rw [if_pos (lt_of_le_of_lt hg.length_le hbig)]
  | succ fuel ih =>
    intro t uniq hg
    unfold sampleUniqueLoop
    rw [if_pos (lt_of_le_of_lt hg.length_le hbig)]
    simp only
    rw [if_neg (by omega)]
    exact ih _ _ (hg.pass hs (hr t))

/-- `m` further rows exist as long as the total stays within `n choose size`. -/
theorem exists_fresh_rows {s : List α} (hs : s.Nodup) {size : Nat} {uniq : List (List α)}
    (h : GoodRows s size uniq) (m : Nat) (hm : uniq.length + m ≤ s.length.choose size) :
    ∃ fresh : List (List α), fresh.length = m ∧ GoodRows s size (uniq ++ fresh) := by
  classical
  -- all good rows
  let all : List (List α) := (s.toFinset.powersetCard size).toList.map fun f => f.sort (· ≤ ·)
  have hall : ∀ r ∈ all, GoodRow s size r := by
    intro r hr
    obtain ⟨f, hf, rfl⟩ := List.mem_map.mp hr
    rw [Finset.mem_toList, Finset.mem_powersetCard] at hf
    refine ⟨(Finset.sortedLT_sort f).pairwise, by rw [Finset.length_sort]; exact hf.2, ?_⟩
    intro x hx
    rw [Finset.mem_sort] at hx
    exact List.mem_toFinset.mp (hf.1 hx)
  have hnd : all.Nodup := by
    refine List.Nodup.map_on ?_ (Finset.nodup_toList _)
    intro a _ b _ hab
    have := congrArg List.toFinset hab
    simpa using this
  have hlen : all.length = s.length.choose size := by
    simp [all, List.toFinset_card_of_nodup hs]
  let rest := all.filter (fun r => r ∉ uniq)
  have hrest : m ≤ rest.length := by
    have h1 : all.length = (all.filter (fun r => r ∈ uniq)).length + rest.length := by
      have := List.length_eq_length_filter_add (l := all) (fun r => decide (r ∈ uniq))
      simpa [rest] using this
    have h2 : (all.filter (fun r => r ∈ uniq)).length ≤ uniq.length := by
      apply List.Subperm.length_le
      apply List.subperm_of_subset (hnd.filter _)
      intro r hr
      simpa using (List.mem_filter.mp hr).2
    omega
  refine ⟨rest.take m, by simpa using hrest, ?_, ?_⟩
  · intro r hr
    rcases List.mem_append.mp hr with h1 | h1
    · exact h.good r h1
    · exact hall r (List.mem_filter.mp (List.mem_of_mem_take h1)).1
  · rw [List.nodup_append]
    refine ⟨h.nodup, (hnd.filter _).sublist (List.take_sublist _ _), ?_⟩
    intro a ha b hb hab
    subst hab
    have := (List.mem_filter.mp (List.mem_of_mem_take hb)).2
    simp [ha] at this

theorem toSample_ge (a b : Nat) : a - b ≤ toSample a b := by
  unfold toSample; omega

theorem uniqueRows_length_of_nodup {rows : List (List α)} (h : rows.Nodup) :
    (uniqueRows rows).length = rows.length := by
  unfold uniqueRows
  rw [List.length_insertionSort, List.dedup_eq_self.mpr h]

theorem uniqueRows_length_ge (l1 l2 : List (List α)) (h : l1 ⊆ l2) (hn : l1.Nodup) :
    l1.length ≤ (uniqueRows l2).length := by
  apply List.Subperm.length_le
  apply List.subperm_of_subset hn
  intro r hr
  rw [mem_uniqueRows]
  exact h hr

end Lop
