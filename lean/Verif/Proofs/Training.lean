import Verif.Model.Training
import Verif.Spec.Training
import Verif.Proofs.Basic
import Mathlib.Data.List.Perm.Basic
import Mathlib.Data.List.Nodup
import Mathlib.Data.List.Flatten
import Mathlib.Algebra.BigOperators.Group.List.Basic
import Mathlib.Algebra.Order.BigOperators.Group.List
import Mathlib.Tactic.Linarith

namespace Lop

open Lop.Spec

theorem mem_neighbours_lt {pairs : List Pair} {N i x : Nat}
    (hp : ∀ p ∈ pairs, p.u < N ∧ p.v < N) (h : x ∈ neighbours pairs i) : x < N := by
  unfold neighbours at h
  rw [List.mem_dedup, List.mem_flatMap] at h
  obtain ⟨p, hpm, hx⟩ := h
  have := hp p hpm
  rw [List.mem_append] at hx
  rcases hx with hx | hx <;> split at hx <;> simp at hx <;> omega

/-- Outcome of the inner loop. -/
theorem fillSplit_spec (maxSize : Nat) (l : List Nat) :
    ∀ (split selected remaining : List Nat), split.length ≤ maxSize →
      (∀ x ∈ l, x ∈ selected ∨ x ∈ remaining) →
      ∃ added rem', fillSplit maxSize l split selected remaining
          = .ok (split ++ added, added.reverse ++ selected, rem') ∧
        (added ++ rem').Perm remaining ∧ (split ++ added).length ≤ maxSize := by
  induction l with
  | nil =>
    intro split selected remaining h _
    exact ⟨[], remaining, by simp [fillSplit], by simp, by simpa using h⟩
  | cons s rest ih =>
    intro split selected remaining hlen hmem
    unfold fillSplit
    split
    · exact ⟨[], remaining, by simp, by simp, by simpa using hlen⟩
    · rename_i hlt
      split
      · exact ih split selected remaining hlen fun x hx => hmem x (List.mem_cons_of_mem _ hx)
      · rename_i hs
        have hr : s ∈ remaining := (hmem s (by simp)).resolve_left hs
        rw [if_pos hr]
        obtain ⟨added, rem', h1, h2, h3⟩ := ih (split ++ [s]) (s :: selected) (remaining.erase s)
          (by simp; omega) (by
            intro x hx
            rcases hmem x (List.mem_cons_of_mem _ hx) with h | h
            · exact Or.inl (List.mem_cons_of_mem _ h)
            · by_cases hxs : x = s
              · exact Or.inl (by simp [hxs])
              · exact Or.inr ((List.mem_erase_of_ne hxs).mpr h))
        refine ⟨s :: added, rem', ?_, ?_, ?_⟩
        · rw [h1]; simp
        · exact (List.Perm.cons s h2).trans (List.perm_cons_erase hr).symm
        · simpa using h3

/-- Invariant of the outer loop. -/
structure FoldInv (N k maxSize : Nat) (splits : List (List Nat)) (selected remaining : List Nat) : Prop where
  num : splits.length = k
  part : (splits.flatten ++ remaining).Perm (List.range N)
  sel : ∀ x, x ∈ selected ↔ x ∈ splits.flatten
  size : ∀ s ∈ splits, s.length ≤ maxSize

theorem flatten_set_perm (splits : List (List Nat)) (i : Nat) (s extra : List Nat)
    (h : splits[i]? = some s) : ((splits.set i (s ++ extra)).flatten).Perm (splits.flatten ++ extra) := by
  induction splits generalizing i with
  | nil => simp at h
  | cons x xs ih =>
    cases i with
    | zero =>
      simp at h
      subst h
      simp only [List.set_cons_zero, List.flatten_cons, List.append_assoc]
      exact List.Perm.append_left _ List.perm_append_comm
    | succ i =>
      simp only [List.getElem?_cons_succ] at h
      simp only [List.set_cons_succ, List.flatten_cons, List.append_assoc]
      exact List.Perm.append_left _ (ih i h)

/-- The smallest split has room as long as a point remains. -/
theorem min_split_has_room {N k maxSize : Nat} {splits : List (List Nat)} {selected remaining : List Nat}
    (hinv : FoldInv N k maxSize splits selected remaining) (hk : N ≤ k * maxSize)
    (hrem : remaining ≠ []) {s : List Nat} (hmin : ∀ t ∈ splits, s.length ≤ t.length) :
    s.length < maxSize := by
  by_contra hc
  push Not at hc
  have hl := hinv.part.length_eq
  simp only [List.length_append, List.length_flatten, List.length_range] at hl
  have hr : 0 < remaining.length := List.length_pos_iff.mpr hrem
  have : (splits.map List.length).sum ≥ splits.length * maxSize := by
    have := List.card_nsmul_le_sum (splits.map List.length) maxSize (by
      intro x hx
      obtain ⟨t, ht, rfl⟩ := List.mem_map.mp hx
      exact hc.trans (hmin t ht))
    simpa using this
  rw [hinv.num] at this
  omega

theorem foldLoop_spec (rng : FoldRng) (hr : rng.Valid) (pairs : List Pair) (N k maxSize : Nat)
    (hp : ∀ p ∈ pairs, p.u < N ∧ p.v < N) (hk0 : 0 < k) (hk : N ≤ k * maxSize) :
    ∀ (fuel t : Nat) (splits : List (List Nat)) (selected remaining : List Nat),
      remaining.length ≤ fuel → FoldInv N k maxSize splits selected remaining →
      ∃ res, foldLoop rng pairs maxSize fuel t splits selected remaining = .ok res ∧
        ∃ sel', FoldInv N k maxSize res sel' [] := by
  intro fuel
  induction fuel with
  | zero =>
    intro t splits selected remaining hf hinv
    have : remaining = [] := by simpa using hf
    subst this
    exact ⟨splits, by simp [foldLoop], selected, hinv⟩
  | succ fuel ih =>
    intro t splits selected remaining hf hinv
    cases remaining with
    | nil => exact ⟨splits, by simp [foldLoop], selected, hinv⟩
    | cons r rs =>
      unfold foldLoop
      have hd : rng.draw t (r :: rs).length < (r :: rs).length := hr.draw_lt _ _ (by simp)
      simp only [List.getElem?_eq_getElem hd]
      set idx := (r :: rs)[rng.draw t (r :: rs).length] with hidx
      have hidxmem : idx ∈ r :: rs := List.getElem_mem _
      have hne : splits.map List.length ≠ [] := by
        intro h
        have := hinv.num
        simp at h
        subst h
        simp at this
        omega
      obtain ⟨si, hsi⟩ := npArgmin_isOk hne
      obtain ⟨m, hm, hmin, _⟩ := npArgmin_spec hsi
      rw [List.getElem?_map] at hm
      obtain ⟨split, hsplit, rfl⟩ := Option.map_eq_some_iff.mp hm
      have hroom := min_split_has_room hinv hk (by simp) (s := split)
        (fun u hu => hmin _ (List.mem_map_of_mem hu))
      have hcover : ∀ x ∈ rng.shuffle t (neighbours pairs idx), x ∈ idx :: selected ∨ x ∈ (r :: rs).erase idx := by
        intro x hx
        have hxN : x < N := mem_neighbours_lt hp ((hr.shuffle_perm _ _).mem_iff.mp hx)
        have : x ∈ splits.flatten ++ r :: rs := hinv.part.mem_iff.mpr (List.mem_range.mpr hxN)
        by_cases hxi : x = idx
        · simp [hxi]
        · rcases List.mem_append.mp this with h | h
          · exact Or.inl (List.mem_cons_of_mem _ ((hinv.sel x).mpr h))
          · exact Or.inr ((List.mem_erase_of_ne hxi).mpr h)
      obtain ⟨added, rem', h1, h2, h3⟩ := fillSplit_spec maxSize
        (rng.shuffle t (neighbours pairs idx)) (split ++ [idx]) (idx :: selected) ((r :: rs).erase idx)
        (by simp; omega) hcover
      simp only [hsi, bind, Except.bind, hsplit, h1]
      apply ih
      · have := h2.length_eq
        simp only [List.length_append] at this
        have h4 := List.length_erase_of_mem hidxmem
        simp only [List.length_cons] at *
        omega
      · have hflat := flatten_set_perm splits si split (idx :: added) hsplit
        refine ⟨?_, ?_, ?_, ?_⟩
        · simpa using hinv.num
        · have e1 : ((splits.set si (split ++ [idx] ++ added)).flatten ++ rem').Perm
              ((splits.flatten ++ idx :: added) ++ rem') := by
            apply List.Perm.append_right
            simpa using hflat
          refine e1.trans (List.Perm.trans ?_ hinv.part)
          rw [List.append_assoc]
          apply List.Perm.append_left
          exact (List.Perm.cons idx h2).trans (List.perm_cons_erase hidxmem).symm
        · intro x
          have : x ∈ (splits.set si (split ++ [idx] ++ added)).flatten ↔ x ∈ splits.flatten ++ idx :: added := by
            rw [show split ++ [idx] ++ added = split ++ idx :: added by simp]
            exact hflat.mem_iff
          rw [this]
          simp only [List.mem_append, List.mem_reverse, List.mem_cons, hinv.sel]
          tauto
        · intro s hs
          rcases List.mem_or_eq_of_mem_set hs with h | h
          · exact hinv.size s h
          · rw [h]; exact h3

theorem ceilDiv_mul (N k : Nat) (hk : 0 < k) : N ≤ k * ((N + k - 1) / k) := by
  have h1 := Nat.div_add_mod (N + k - 1) k
  have h2 := Nat.mod_lt (N + k - 1) hk
  omega

theorem map_sort_flatten_perm (l : List (List Nat)) :
    (l.map fun s => s.insertionSort (· ≤ ·)).flatten.Perm l.flatten := by
  induction l with
  | nil => simp
  | cons x xs ih =>
    simp only [List.map_cons, List.flatten_cons]
    exact (List.perm_insertionSort _ _).append ih

/-! ### Label restriction -/

theorem idxMapping_eq (indicies : List Nat) : idxMapping indicies = (indicies.zipIdx).reverse := by
  unfold idxMapping
  have : ∀ (l : List (Nat × Nat)) (acc : List (Nat × Nat)),
      l.foldl (fun m x => (x.1, x.2) :: m) acc = l.reverse ++ acc := by
    intro l
    induction l with
    | nil => simp
    | cons x xs ih => intro acc; simp [ih]
  simpa using this indicies.zipIdx []

theorem lookup_mem {l : List (Nat × Nat)} {a b : Nat} (h : l.lookup a = some b) : (a, b) ∈ l := by
  induction l with
  | nil => simp at h
  | cons x xs ih =>
    rw [List.lookup_cons] at h
    by_cases hx : a == x.1
    · simp only [hx] at h
      simp at h hx
      subst h; subst hx
      simp
    · simp only [hx] at h
      exact List.mem_cons_of_mem _ (ih h)

theorem lookup_isSome {l : List (Nat × Nat)} {a : Nat} (h : ∃ b, (a, b) ∈ l) : ∃ b, l.lookup a = some b := by
  induction l with
  | nil => simp at h
  | cons x xs ih =>
    rw [List.lookup_cons]
    by_cases hx : a == x.1
    · simp only [hx]; exact ⟨_, rfl⟩
    · simp only [hx]
      apply ih
      obtain ⟨b, hb⟩ := h
      rcases List.mem_cons.mp hb with h | h
      · subst h; simp at hx
      · exact ⟨b, h⟩

/-- The dictionary maps each index to a position where it occurs. -/
theorem idxMapping_lookup {indicies : List Nat} {a : Nat} (h : a ∈ indicies) :
    ∃ i, (idxMapping indicies).lookup a = some i ∧ indicies[i]? = some a := by
  obtain ⟨i, hi⟩ := List.mem_iff_getElem?.mp h
  have hmem : (a, i) ∈ idxMapping indicies := by
    rw [idxMapping_eq, List.mem_reverse, List.mem_zipIdx_iff_getElem?]
    exact hi
  obtain ⟨b, hb⟩ := lookup_isSome ⟨i, hmem⟩
  refine ⟨b, hb, ?_⟩
  have := lookup_mem hb
  rw [idxMapping_eq, List.mem_reverse, List.mem_zipIdx_iff_getElem?] at this
  exact this

theorem ite_isEmpty_getD {γ : Type*} (new : List γ) :
    (if new.isEmpty then none else some new).getD [] = new := by
  cases new <;> simp

theorem getElem?_subset {P : Type*} (X : List P) (indicies : List Nat) (sub : List P)
    (hsub : indicies.mapM (fun i => X[i]?) = some sub) (i a : Nat) (h : indicies[i]? = some a) :
    sub[i]? = X[a]? := by
  induction indicies generalizing sub i with
  | nil => simp at h
  | cons x xs ih =>
    rw [List.mapM_cons] at hsub
    simp only [bind, Option.bind_eq_some_iff, pure, Option.some.injEq] at hsub
    obtain ⟨p, hp, ps, hps, rfl⟩ := hsub
    cases i with
    | zero => simp at h; subst h; simpa using hp.symm
    | succ i => simpa using ih ps hps i (by simpa using h)

theorem idxMapping_lookup_lt {indicies : List Nat} (a i : Nat) (h : (idxMapping indicies).lookup a = some i) :
    i < indicies.length := by
  have := lookup_mem h
  rw [idxMapping_eq, List.mem_reverse, List.mem_zipIdx_iff_getElem?] at this
  exact (List.getElem?_eq_some_iff.mp this).1

theorem restrictRatings_lt {β : Type*} {indicies : List Nat} (o : Option (List (β × Nat))) (rs : List (β × Nat))
    (h : o.bind (restrictRatings indicies) = some rs) : ∀ r ∈ rs, r.2 < indicies.length := by
  intro r hr
  cases o with
  | none => simp at h
  | some l =>
    simp only [Option.bind_some, restrictRatings] at h
    split at h
    · simp at h
    · simp only [Option.some.injEq] at h
      subst h
      obtain ⟨q, _, hq⟩ := List.mem_filterMap.mp hr
      split at hq
      · obtain ⟨i, hi, rfl⟩ := Option.map_eq_some_iff.mp hq
        exact idxMapping_lookup_lt _ _ hi
      · simp at hq

theorem restrictRatings_none {β : Type*} {indicies : List Nat} (o : Option (List (β × Nat))) :
    o.bind (restrictRatings indicies) = none ↔ ∀ rs, o = some rs → ∀ r ∈ rs, r.2 ∉ indicies := by
  cases o with
  | none => simp
  | some l =>
    simp only [Option.bind_some, restrictRatings, Option.some.injEq, forall_eq']
    split
    · rename_i he
      rw [List.isEmpty_iff, List.filterMap_eq_nil_iff] at he
      simp only [true_iff]
      intro r hr hmem
      have := he r hr
      obtain ⟨i, hi, _⟩ := idxMapping_lookup hmem
      simp [hmem, hi] at this
    · rename_i he
      simp only [reduceCtorEq, false_iff]
      intro hall
      apply he
      rw [List.isEmpty_iff, List.filterMap_eq_nil_iff]
      intro r hr
      simp [hall r hr]

/-- The pair part of C09. -/
theorem restrict_pairs_facts {P : Type*} (X : List P) (indicies : List Nat) (sub : List P)
    (hsub : indicies.mapM (fun i => X[i]?) = some sub) (ps : List Pair) :
    pairFacts sub (restrictPairs indicies ps)
      = pairFacts X (some (ps.filter fun p => p.u ∈ indicies ∧ p.v ∈ indicies)) := by
  unfold restrictPairs pairFacts
  simp only [ite_isEmpty_getD]
  simp only [Option.getD_some]
  induction ps with
  | nil => rfl
  | cons p rest ih =>
    rw [List.filterMap_cons, List.filter_cons]
    by_cases h : p.u ∈ indicies ∧ p.v ∈ indicies
    · obtain ⟨i, hi, hi'⟩ := idxMapping_lookup h.1
      obtain ⟨j, hj, hj'⟩ := idxMapping_lookup h.2
      simp only [h, and_self, ↓reduceIte, hi, hj, decide_true, List.map_cons, ih]
      rw [getElem?_subset X indicies sub hsub i _ hi', getElem?_subset X indicies sub hsub j _ hj']
    · simp only [h, ↓reduceIte, decide_false, ih]
      rfl

/-- The rating part of C09. -/
theorem restrict_ratings_facts {P β : Type*} (X : List P) (indicies : List Nat) (sub : List P)
    (hsub : indicies.mapM (fun i => X[i]?) = some sub) (rs : List (β × Nat)) :
    ratingFacts sub (restrictRatings indicies rs)
      = ratingFacts X (some (rs.filter fun r => r.2 ∈ indicies)) := by
  unfold restrictRatings ratingFacts
  simp only [ite_isEmpty_getD]
  simp only [Option.getD_some]
  induction rs with
  | nil => rfl
  | cons p rest ih =>
    rw [List.filterMap_cons, List.filter_cons]
    by_cases h : p.2 ∈ indicies
    · obtain ⟨i, hi, hi'⟩ := idxMapping_lookup h
      simp only [h, ↓reduceIte, hi, Option.map_some, decide_true, List.map_cons, ih]
      rw [getElem?_subset X indicies sub hsub i _ hi']
    · simp only [h, ↓reduceIte, decide_false, ih]
      rfl

section Normalize
variable {K : Type*} [LinearOrder K]

theorem foldl_max_ge (l : List K) (a : K) : a ≤ l.foldl max a ∧ ∀ x ∈ l, x ≤ l.foldl max a := by
  induction l generalizing a with
  | nil => simp
  | cons y ys ih =>
    obtain ⟨h1, h2⟩ := ih (max a y)
    refine ⟨(le_max_left _ _).trans h1, ?_⟩
    intro x hx
    rcases List.mem_cons.mp hx with rfl | hx
    · exact (le_max_right _ _).trans h1
    · exact h2 x hx

theorem foldl_min_le (l : List K) (a : K) : l.foldl min a ≤ a ∧ ∀ x ∈ l, l.foldl min a ≤ x := by
  induction l generalizing a with
  | nil => simp
  | cons y ys ih =>
    obtain ⟨h1, h2⟩ := ih (min a y)
    refine ⟨h1.trans (min_le_left _ _), ?_⟩
    intro x hx
    rcases List.mem_cons.mp hx with rfl | hx
    · exact h1.trans (min_le_right _ _)
    · exact h2 x hx

theorem foldl_max_mem (l : List K) (a : K) : l.foldl max a ∈ a :: l := by
  induction l generalizing a with
  | nil => simp
  | cons y ys ih =>
    have := ih (max a y)
    simp only [List.foldl_cons, List.mem_cons] at *
    rcases this with h | h
    · rcases max_choice a y with g | g <;> rw [g] at h <;> rw [g] <;> tauto
    · tauto

theorem foldl_min_mem (l : List K) (a : K) : l.foldl min a ∈ a :: l := by
  induction l generalizing a with
  | nil => simp
  | cons y ys ih =>
    have := ih (min a y)
    simp only [List.foldl_cons, List.mem_cons] at *
    rcases this with h | h
    · rcases min_choice a y with g | g <;> rw [g] at h <;> rw [g] <;> tauto
    · tauto

end Normalize

end Lop
