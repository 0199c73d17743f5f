import Verif.Model.RepQ
import Verif.Spec.RepQ
import Mathlib.Data.List.Sublists
import Mathlib.Tactic.Linarith

/-! # Lemmas on combinations -/

namespace Lop

theorem combos_spec {n : Nat} : ∀ (l : List Nat) (k : Nat), l.Pairwise (· < ·) → (∀ i ∈ l, i < n) →
    (∀ c ∈ combos l k, c.Pairwise (· < ·) ∧ c.length = k ∧ ∀ i ∈ c, i ∈ l) ∧
    (combos l k).Pairwise (· ≠ ·) ∧ (combos l k).length = l.length.choose k := by
  intro l
  induction l with
  | nil =>
    intro k _ _
    cases k <;> simp [combos]
  | cons x xs ih =>
    intro k hp hn
    rw [List.pairwise_cons] at hp
    cases k with
    | zero => simp [combos]
    | succ k =>
      obtain ⟨a1, a2, a3⟩ := ih k hp.2 fun i hi => hn i (List.mem_cons_of_mem _ hi)
      obtain ⟨b1, b2, b3⟩ := ih (k + 1) hp.2 fun i hi => hn i (List.mem_cons_of_mem _ hi)
      refine ⟨?_, ?_, ?_⟩
      · intro c hc
        simp only [combos, List.mem_append, List.mem_map] at hc
        rcases hc with ⟨c', hc', rfl⟩ | hc
        · obtain ⟨h1, h2, h3⟩ := a1 c' hc'
          refine ⟨List.pairwise_cons.2 ⟨fun y hy => hp.1 y (h3 y hy), h1⟩, by simp [h2], ?_⟩
          intro i hi
          rcases List.mem_cons.1 hi with rfl | hi
          · exact List.mem_cons_self
          · exact List.mem_cons_of_mem _ (h3 i hi)
        · obtain ⟨h1, h2, h3⟩ := b1 c hc
          exact ⟨h1, h2, fun i hi => List.mem_cons_of_mem _ (h3 i hi)⟩
      · simp only [combos]
        rw [List.pairwise_append]
        refine ⟨?_, b2, ?_⟩
        · rw [List.pairwise_map]
          exact a2.imp fun h he => h (List.cons.inj he).2
        · intro a ha b hb heq
          obtain ⟨c', _, rfl⟩ := List.mem_map.1 ha
          have := (b1 b hb).2.2 x (by rw [← heq]; exact List.mem_cons_self)
          exact absurd (hp.1 x this) (lt_irrefl x)
      · simp only [combos, List.length_append, List.length_map, a3, b3, List.length_cons]
        exact (Nat.choose_succ_succ _ _).symm

theorem toFinset_ne_of_sorted {a b : List Nat} (ha : a.Pairwise (· < ·)) (hb : b.Pairwise (· < ·))
    (h : a ≠ b) : a.toFinset ≠ b.toFinset := by
  intro he
  apply h
  have hperm : a.Perm b := by
    have na : a.Nodup := ha.imp fun h => ne_of_lt h
    have nb : b.Nodup := hb.imp fun h => ne_of_lt h
    rw [List.perm_ext_iff_of_nodup na nb]
    intro x
    have := congrArg (x ∈ ·) he
    simpa using this
  refine hperm.eq_of_pairwise ?_ ha hb
  intro x y _ _ h1 h2
  exact absurd (lt_trans h1 h2) (lt_irrefl x)

end Lop
