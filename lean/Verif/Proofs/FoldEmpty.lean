import Verif.Proofs.Training

/-! # Helper lemmas: an empty fold when all points are compared with each other -/

namespace Lop

open Lop.Spec

/-- When all pairs are present, every other point is a neighbour. -/
theorem mem_neighbours_of_complete {pairs : List Pair} {i j : Nat}
    (h : ∃ p ∈ pairs, (p.u = i ∧ p.v = j) ∨ (p.u = j ∧ p.v = i)) : j ∈ neighbours pairs i := by
  obtain ⟨p, hp, h⟩ := h
  unfold neighbours
  rw [List.mem_dedup, List.mem_flatMap]
  refine ⟨p, hp, ?_⟩
  rw [List.mem_append]
  rcases h with ⟨h1, h2⟩ | ⟨h1, h2⟩
  · left; simp [h1, h2]
  · right; simp [h1, h2]

/-- When the list names all remaining points, the inner loop stops with a full split or with nothing left. -/
theorem fillSplit_full (maxSize : Nat) (l : List Nat) :
    ∀ (split selected remaining split' selected' remaining' : List Nat),
      (∀ x ∈ remaining, x ∉ selected) → remaining.Nodup → (∀ x ∈ remaining, x ∈ l) →
      fillSplit maxSize l split selected remaining = .ok (split', selected', remaining') →
      maxSize ≤ split'.length ∨ remaining' = [] := by
  induction l with
  | nil =>
    intro split selected remaining split' selected' remaining' _ _ hl h
    have : remaining = [] := List.eq_nil_iff_forall_not_mem.mpr fun x hx => by simpa using hl x hx
    subst this
    simp only [fillSplit, Except.ok.injEq, Prod.mk.injEq] at h
    exact Or.inr h.2.2.symm
  | cons s rest ih =>
    intro split selected remaining split' selected' remaining' hd hnd hl h
    unfold fillSplit at h
    split at h
    · rename_i hge
      simp only [Except.ok.injEq, Prod.mk.injEq] at h
      left
      rw [← h.1]
      exact hge
    · split at h
      · rename_i hs
        refine ih split selected remaining split' selected' remaining' hd hnd (fun x hx => ?_) h
        rcases List.mem_cons.mp (hl x hx) with rfl | h'
        · exact absurd hs (hd x hx)
        · exact h'
      · split at h
        · refine ih _ _ _ _ _ _ ?_ (hnd.erase s) ?_ h
          · intro x hx
            have hx' := (hnd.mem_erase_iff.mp hx)
            rw [List.mem_cons]
            rintro (rfl | h')
            · exact hx'.1 rfl
            · exact hd x hx'.2 h'
          · intro x hx
            have hx' := (hnd.mem_erase_iff.mp hx)
            rcases List.mem_cons.mp (hl x hx'.2) with rfl | h'
            · exact absurd rfl hx'.1
            · exact h'
        · simp at h

/-- The outer loop on a complete graph: an empty split is left. -/
theorem foldLoop_empty (rng : FoldRng) (hr : rng.Valid) (pairs : List Pair) (N k maxSize : Nat)
    (hp : ∀ p ∈ pairs, p.u < N ∧ p.v < N)
    (hcomp : ∀ i j, i < N → j < N → i ≠ j → ∃ p ∈ pairs, (p.u = i ∧ p.v = j) ∨ (p.u = j ∧ p.v = i))
    (hm : 0 < maxSize) (hk0 : 0 < k) (hk : N ≤ k * maxSize) (hbal : N ≤ (k - 1) * maxSize) :
    ∀ (fuel t : Nat) (splits : List (List Nat)) (selected remaining : List Nat),
      remaining.length ≤ fuel → FoldInv N k maxSize splits selected remaining →
      1 ≤ splits.count [] →
      (remaining = [] ∨ (k - splits.count []) * maxSize + remaining.length = N) →
      ∃ res, foldLoop rng pairs maxSize fuel t splits selected remaining = .ok res ∧ [] ∈ res := by
  intro fuel
  induction fuel with
  | zero =>
    intro t splits selected remaining hf hinv he _
    have : remaining = [] := by simpa using hf
    subst this
    exact ⟨splits, by simp [foldLoop], List.count_pos_iff.mp he⟩
  | succ fuel ih =>
    intro t splits selected remaining hf hinv he hcnt
    cases remaining with
    | nil => exact ⟨splits, by simp [foldLoop], List.count_pos_iff.mp he⟩
    | cons r rs =>
      have hcnt := hcnt.resolve_left (by simp)
      have hnod : (splits.flatten ++ r :: rs).Nodup := hinv.part.nodup_iff.mpr List.nodup_range
      obtain ⟨-, hnodr, hdisj⟩ := List.nodup_append.mp hnod
      unfold foldLoop
      have hd : rng.draw t (r :: rs).length < (r :: rs).length := hr.draw_lt _ _ (by simp)
      simp only [List.getElem?_eq_getElem hd]
      set idx := (r :: rs)[rng.draw t (r :: rs).length] with hidx
      have hidxmem : idx ∈ r :: rs := List.getElem_mem _
      have hemem : [] ∈ splits := List.count_pos_iff.mp he
      have hne : splits.map List.length ≠ [] := by
        intro h
        simp at h
        subst h
        simp at hemem
      obtain ⟨si, hsi⟩ := npArgmin_isOk hne
      obtain ⟨m, hmm, hmin, _⟩ := npArgmin_spec hsi
      rw [List.getElem?_map] at hmm
      obtain ⟨split, hsplit, rfl⟩ := Option.map_eq_some_iff.mp hmm
      have hs0 : split = [] := by
        have := hmin _ (List.mem_map_of_mem (f := List.length) hemem)
        exact List.length_eq_zero_iff.mp (by simpa using this)
      subst hs0
      have hcover : ∀ x ∈ rng.shuffle t (neighbours pairs idx), x ∈ idx :: selected ∨ x ∈ (r :: rs).erase idx := by
        intro x hx
        have hxN : x < N := mem_neighbours_lt hp ((hr.shuffle_perm _ _).mem_iff.mp hx)
        have : x ∈ splits.flatten ++ r :: rs := hinv.part.mem_iff.mpr (List.mem_range.mpr hxN)
        by_cases hxi : x = idx
        · simp [hxi]
        · rcases List.mem_append.mp this with h | h
          · exact Or.inl (List.mem_cons_of_mem _ ((hinv.sel x).mpr h))
          · exact Or.inr ((List.mem_erase_of_ne hxi).mpr h)
      obtain ⟨added, rem', h1, h2, h3⟩ := fillSplit_spec maxSize
        (rng.shuffle t (neighbours pairs idx)) ([] ++ [idx]) (idx :: selected) ((r :: rs).erase idx)
        (by simp; omega) hcover
      have hN : ∀ x ∈ r :: rs, x < N := fun x hx =>
        List.mem_range.mp (hinv.part.mem_iff.mp (List.mem_append_right _ hx))
      have hfull := fillSplit_full maxSize _ _ _ _ _ _ _ (by
          intro x hx
          have hx' := hnodr.mem_erase_iff.mp hx
          rw [List.mem_cons]
          rintro (rfl | h')
          · exact hx'.1 rfl
          · exact hdisj x ((hinv.sel x).mp h') x hx'.2 rfl) (hnodr.erase idx) (by
          intro x hx
          have hx' := hnodr.mem_erase_iff.mp hx
          exact (hr.shuffle_perm _ _).mem_iff.mpr (mem_neighbours_of_complete
            (hcomp idx x (hN idx hidxmem) (hN x hx'.2) (Ne.symm hx'.1)))) h1
      simp only [hsi, bind, Except.bind, hsplit, h1]
      have hlenE := h2.length_eq
      simp only [List.length_append] at hlenE
      have h4 := List.length_erase_of_mem hidxmem
      have hsilt : si < splits.length := (List.getElem?_eq_some_iff.mp hsplit).1
      have hsieq : splits[si] = [] := (List.getElem?_eq_some_iff.mp hsplit).2
      have hcount : (splits.set si ([] ++ [idx] ++ added)).count [] = splits.count [] - 1 := by
        rw [List.count_set hsilt]
        simp [hsieq]
      have hcle : splits.count [] ≤ k := hinv.num ▸ List.count_le_length
      have he2 : 2 ≤ splits.count [] := by
        by_contra hc
        have h1' : splits.count [] = 1 := by omega
        rw [h1'] at hcnt
        simp only [List.length_cons] at hcnt
        omega
      apply ih
      · simp only [List.length_cons] at *
        omega
      · have hflat := flatten_set_perm splits si [] (idx :: added) hsplit
        refine ⟨?_, ?_, ?_, ?_⟩
        · simpa using hinv.num
        · have e1 : ((splits.set si ([] ++ [idx] ++ added)).flatten ++ rem').Perm
              ((splits.flatten ++ idx :: added) ++ rem') := by
            apply List.Perm.append_right
            simpa using hflat
          refine e1.trans (List.Perm.trans ?_ hinv.part)
          rw [List.append_assoc]
          apply List.Perm.append_left
          exact (List.Perm.cons idx h2).trans (List.perm_cons_erase hidxmem).symm
        · intro x
          have : x ∈ (splits.set si ([] ++ [idx] ++ added)).flatten ↔ x ∈ splits.flatten ++ idx :: added := by
            rw [show [] ++ [idx] ++ added = [] ++ idx :: added by simp]
            exact hflat.mem_iff
          rw [this]
          simp only [List.mem_append, List.mem_reverse, List.mem_cons, hinv.sel]
          tauto
        · intro s hs
          rcases List.mem_or_eq_of_mem_set hs with h | h
          · exact hinv.size s h
          · rw [h]; exact h3
      · rw [hcount]; omega
      · rw [hcount]
        rcases hfull with hf' | hf'
        · right
          have hlm : added.length + 1 = maxSize := by
            simp only [List.length_append, List.length_cons, List.length_nil] at h3 hf'
            omega
          have : k - (splits.count [] - 1) = (k - splits.count []) + 1 := by omega
          rw [this, Nat.add_mul]
          simp only [List.length_cons] at *
          omega
        · exact Or.inl hf'

end Lop
