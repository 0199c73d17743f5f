import Verif.Spec.Select
import Verif.Proofs.Basic
import Mathlib.Data.Finset.Card
import Mathlib.Tactic.Linarith

/-! Greedy selection: the loop refines a simple recursion. -/

namespace Lop

open Spec

/-- What is offered to the learner when the points `taken` have been selected. -/
def choiceSet (pref avail : Finset Nat) (taken : List Nat) : Finset Nat :=
  if pref \ taken.toFinset ≠ ∅ then pref \ taken.toFinset else avail \ taken.toFinset

/-- Plain greedy recursion. -/
def greedyRun (g : Nat → Finset Nat → Finset Nat → Except PyErr Nat) (pref avail prev : Finset Nat) :
    Nat → Nat → List Nat → Except PyErr (List Nat)
  | 0, _, sel => .ok sel
  | k + 1, t, sel =>
    let S := choiceSet pref avail sel
    if S = ∅ then .error .exception
    else match g t S (prev ∪ sel.toFinset) with
      | .error e => .error e
      | .ok i => if i ∈ S then greedyRun g pref avail prev k (t + 1) (sel ++ [i]) else .error .keyError

theorem sdiff_append_one (s : Finset Nat) (sel : List Nat) (i : Nat) :
    s \ (sel ++ [i]).toFinset = (s \ sel.toFinset).erase i := by
  ext x
  simp only [Finset.mem_sdiff, List.mem_toFinset, List.mem_append, List.mem_singleton,
    Finset.mem_erase]
  tauto

theorem selectLoop_eq_greedyRun (L : Learner) (pf : Bool) (N numAlts : Nat) (prev pref0 : Finset Nat)
    (fuel t : Nat) (sel : List Nat) (pref : Finset Nat) (alln : Option (Finset Nat))
    (h : L.pair = none ∨ pf = false ∨ sel ≠ [])
    (hpref : pref = pref0 \ sel.toFinset)
    (halln : alln = none ∨ pref = ∅ ∧ alln = some ((Finset.range N \ prev) \ sel.toFinset))
    (hk : numAlts - sel.length ≤ fuel) :
    selectLoop L pf N numAlts prev fuel t sel pref alln =
      greedyRun L.greedy pref0 (Finset.range N \ prev) prev (numAlts - sel.length) t sel := by
  induction fuel generalizing t sel pref alln with
  | zero =>
    have : ¬ sel.length < numAlts := by omega
    have h0 : numAlts - sel.length = 0 := by omega
    simp [selectLoop, this, h0, greedyRun]
  | succ fuel ih =>
    by_cases hlt : sel.length < numAlts
    · have hp : (if pf = true ∧ sel = [] then L.pair else none) = none := by
        rcases h with h | h | h <;> simp [h]
      obtain ⟨k, hk'⟩ : ∃ k, numAlts - sel.length = k + 1 := ⟨numAlts - sel.length - 1, by omega⟩
      have hlen : ∀ i : Nat, numAlts - (sel ++ [i]).length = k := by
        intro i; simp only [List.length_append, List.length_singleton]; omega
      have hrest : alln.getD ((Finset.range N \ prev) \ sel.toFinset) =
          (Finset.range N \ prev) \ sel.toFinset := by
        rcases halln with h | ⟨_, h⟩ <;> simp [h]
      rw [hk']
      simp only [selectLoop, hlt, if_true, hp, greedyRun, hrest]
      by_cases hne : pref = ∅
      · have hS : choiceSet pref0 (Finset.range N \ prev) sel = (Finset.range N \ prev) \ sel.toFinset := by
          simp [choiceSet, ← hpref, hne]
        simp only [hne, ne_eq, not_true_eq_false, if_false, hS]
        split
        · rfl
        · cases hg : L.greedy t ((Finset.range N \ prev) \ sel.toFinset) (prev ∪ sel.toFinset) with
          | error e => rfl
          | ok i =>
            simp only
            split
            · rw [ih (t + 1) (sel ++ [i]) ∅ _ (.inr (.inr (by simp)))
                (by rw [sdiff_append_one, ← hpref, hne]; simp)
                (.inr ⟨rfl, by rw [sdiff_append_one]⟩) (by rw [hlen]; omega), hlen]
            · rfl
      · have hS : choiceSet pref0 (Finset.range N \ prev) sel = pref := by
          simp [choiceSet, ← hpref, hne]
        simp only [ne_eq, hne, not_false_eq_true, if_true, hS, if_false]
        cases hg : L.greedy t pref (prev ∪ sel.toFinset) with
        | error e => rfl
        | ok i =>
          simp only
          split
          · rename_i hi
            have hal : alln = none := by
              rcases halln with h | ⟨h, _⟩
              · exact h
              · exact absurd h hne
            rw [ih (t + 1) (sel ++ [i]) _ alln (.inr (.inr (by simp)))
                (by rw [sdiff_append_one, ← hpref]) (.inl hal) (by rw [hlen]; omega), hlen]
          · rfl
    · have h0 : numAlts - sel.length = 0 := by omega
      simp [selectLoop, hlt, h0, greedyRun]

/-- `r` was chosen one after the other, each element satisfying `P` in what was offered. -/
def ChosenBy (P : Finset Nat → Nat → Prop) (pref avail : Finset Nat) : List Nat → List Nat → Prop
  | _, [] => True
  | sel, a :: r => a ∈ choiceSet pref avail sel ∧ P (choiceSet pref avail sel) a ∧
      ChosenBy P pref avail (sel ++ [a]) r

theorem choiceSet_subset {pref avail : Finset Nat} (h : pref ⊆ avail) (sel : List Nat) :
    choiceSet pref avail sel ⊆ avail \ sel.toFinset := by
  unfold choiceSet
  split
  · exact Finset.sdiff_subset_sdiff h (Finset.Subset.refl _)
  · exact Finset.Subset.refl _

theorem choiceSet_eq_empty {pref avail : Finset Nat} (h : pref ⊆ avail) (sel : List Nat) :
    choiceSet pref avail sel = ∅ ↔ avail \ sel.toFinset = ∅ := by
  constructor
  · intro h0
    unfold choiceSet at h0
    split at h0
    · contradiction
    · exact h0
  · intro h0
    exact Finset.subset_empty.1 (h0 ▸ choiceSet_subset h sel)

theorem greedyRun_ok {g : Nat → Finset Nat → Finset Nat → Except PyErr Nat}
    {P : Finset Nat → Nat → Prop} {pref avail prev : Finset Nat} (hpa : pref ⊆ avail)
    (hg : ∀ t S p, S.Nonempty → S ⊆ avail → ∃ i ∈ S, g t S p = .ok i ∧ P S i) (k t : Nat) (sel : List Nat)
    (hk : k ≤ (avail \ sel.toFinset).card) :
    ∃ r, greedyRun g pref avail prev k t sel = .ok (sel ++ r) ∧ r.length = k ∧
      ChosenBy P pref avail sel r := by
  induction k generalizing t sel with
  | zero => exact ⟨[], by simp [greedyRun], rfl, trivial⟩
  | succ k ih =>
    have hne : choiceSet pref avail sel ≠ ∅ := by
      rw [Ne, choiceSet_eq_empty hpa]
      intro h0; rw [h0] at hk; simp at hk
    obtain ⟨i, hi, hgi, hP⟩ := hg t (choiceSet pref avail sel) (prev ∪ sel.toFinset)
      (Finset.nonempty_iff_ne_empty.2 hne)
      ((choiceSet_subset hpa sel).trans Finset.sdiff_subset)
    have hcard : k ≤ (avail \ (sel ++ [i]).toFinset).card := by
      rw [sdiff_append_one, Finset.card_erase_of_mem (choiceSet_subset hpa sel hi)]
      omega
    obtain ⟨r, hr, hlen, hch⟩ := ih (t + 1) (sel ++ [i]) hcard
    refine ⟨i :: r, ?_, by simp [hlen], hi, hP, hch⟩
    simp only [greedyRun, hne, if_false, hgi, hi, if_true, hr, List.append_assoc, List.singleton_append]

theorem greedyRun_err {g : Nat → Finset Nat → Finset Nat → Except PyErr Nat}
    {pref avail prev : Finset Nat} (hpa : pref ⊆ avail)
    (hg : ∀ t S p, S.Nonempty → S ⊆ avail → ∃ i ∈ S, g t S p = .ok i) (k t : Nat) (sel : List Nat)
    (hk : (avail \ sel.toFinset).card < k) :
    greedyRun g pref avail prev k t sel = .error .exception := by
  induction k generalizing t sel with
  | zero => omega
  | succ k ih =>
    by_cases hne : choiceSet pref avail sel = ∅
    · simp [greedyRun, hne]
    · obtain ⟨i, hi, hgi⟩ := hg t (choiceSet pref avail sel) (prev ∪ sel.toFinset)
        (Finset.nonempty_iff_ne_empty.2 hne)
        ((choiceSet_subset hpa sel).trans Finset.sdiff_subset)
      have hmem := choiceSet_subset hpa sel hi
      have hcard : (avail \ (sel ++ [i]).toFinset).card < k := by
        have hpos := Finset.card_pos.2 ⟨i, hmem⟩
        rw [sdiff_append_one, Finset.card_erase_of_mem hmem]
        omega
      simp only [greedyRun, hne, if_false, hgi, hi, if_true, ih (t + 1) (sel ++ [i]) hcard]

theorem ChosenBy.mono {P Q : Finset Nat → Nat → Prop} {pref avail : Finset Nat}
    (hPQ : ∀ S i, P S i → Q S i) {sel r : List Nat} (h : ChosenBy P pref avail sel r) :
    ChosenBy Q pref avail sel r := by
  induction r generalizing sel with
  | nil => trivial
  | cons a r ih => exact ⟨h.1, hPQ _ _ h.2.1, ih h.2.2⟩

theorem ChosenBy.fresh {P : Finset Nat → Nat → Prop} {pref avail : Finset Nat} (hpa : pref ⊆ avail)
    {sel r : List Nat} (h : ChosenBy P pref avail sel r) : ∀ i ∈ r, i ∈ avail ∧ i ∉ sel := by
  induction r generalizing sel with
  | nil => simp
  | cons a r ih =>
    intro i hi
    rcases List.mem_cons.1 hi with rfl | hi
    · have := choiceSet_subset hpa sel h.1
      simpa using this
    · have := ih h.2.2 i hi
      exact ⟨this.1, fun hs => this.2 (by simp [hs])⟩

theorem ChosenBy.nodup {P : Finset Nat → Nat → Prop} {pref avail : Finset Nat} (hpa : pref ⊆ avail)
    {sel r : List Nat} (h : ChosenBy P pref avail sel r) : r.Nodup := by
  induction r generalizing sel with
  | nil => simp
  | cons a r ih =>
    refine List.nodup_cons.2 ⟨fun hm => ?_, ih h.2.2⟩
    exact (h.2.2.fresh hpa a hm).2 (by simp)

/-- Preferred first, in the order of `R`. -/
theorem ChosenBy.ordered {R : Nat → Nat → Prop} {pref avail : Finset Nat} (hpa : pref ⊆ avail)
    {sel r : List Nat} (h : ChosenBy (fun S i => ∀ j ∈ S, R i j) pref avail sel r) :
    ∃ p q, r = p ++ q ∧ (∀ i ∈ p, i ∈ pref) ∧ (∀ i ∈ q, i ∉ pref) ∧ p.Pairwise R ∧ q.Pairwise R ∧
      (∀ i ∈ p, ∀ j ∈ pref, j ∉ sel → j ∉ r → R i j) ∧
      (∀ i ∈ q, ∀ j ∈ avail, j ∉ sel → j ∉ r → R i j) ∧
      (q ≠ [] → ∀ j ∈ pref, j ∉ sel → j ∈ r) := by
  induction r generalizing sel with
  | nil => exact ⟨[], [], rfl, by simp, by simp, .nil, .nil, by simp, by simp, by simp⟩
  | cons a r ih =>
    obtain ⟨p, q, hr, h1, h2, h3, h4, h5, h6, h7⟩ := ih h.2.2
    have hfr := h.2.2.fresh hpa
    have ha := h.1
    have hR := h.2.1
    by_cases hne : pref \ sel.toFinset ≠ ∅
    · have hS : choiceSet pref avail sel = pref \ sel.toFinset := by simp [choiceSet, hne]
      rw [hS] at ha hR
      simp only [Finset.mem_sdiff, List.mem_toFinset] at ha hR
      refine ⟨a :: p, q, by simp [hr], ?_, h2, ?_, h4, ?_, ?_, ?_⟩
      · intro i hi
        rcases List.mem_cons.1 hi with rfl | hi
        · exact ha.1
        · exact h1 i hi
      · refine List.pairwise_cons.2 ⟨fun j hj => ?_, h3⟩
        have := hfr j (by simp [hr, hj])
        exact hR j ⟨h1 j hj, fun hs => this.2 (by simp [hs])⟩
      · intro i hi j hj hjs hjr
        rcases List.mem_cons.1 hi with rfl | hi
        · exact hR j ⟨hj, hjs⟩
        · exact h5 i hi j hj (by simp only [List.mem_append, List.mem_singleton, not_or]
                                 exact ⟨hjs, fun h => hjr (by simp [h])⟩) (fun h => hjr (by simp [h]))
      · intro i hi j hj hjs hjr
        exact h6 i hi j hj (by simp only [List.mem_append, List.mem_singleton, not_or]
                               exact ⟨hjs, fun h => hjr (by simp [h])⟩) (fun h => hjr (by simp [h]))
      · intro hq j hj hjs
        by_cases hja : j = a
        · simp [hja]
        · exact List.mem_cons_of_mem _ (h7 hq j hj (by simp [hjs, hja]))
    · have hS : choiceSet pref avail sel = avail \ sel.toFinset := by simp [choiceSet, hne]
      push Not at hne
      rw [hS] at ha hR
      simp only [Finset.mem_sdiff, List.mem_toFinset] at ha hR
      have hall : ∀ j ∈ pref, j ∈ sel := by
        intro j hj
        by_contra hjs
        have : j ∈ pref \ sel.toFinset := by simp [hj, hjs]
        simp [hne] at this
      have hp : p = [] := by
        by_contra hp
        obtain ⟨x, hx⟩ := List.exists_mem_of_ne_nil p hp
        have := (hfr x (by simp [hr, hx])).2
        exact this (by simp [hall x (h1 x hx)])
      subst hp
      simp only [List.nil_append] at hr
      subst hr
      refine ⟨[], a :: r, rfl, by simp, ?_, .nil, ?_, by simp, ?_, ?_⟩
      · intro i hi hip
        rcases List.mem_cons.1 hi with rfl | hi
        · exact ha.2 (hall i hip)
        · exact h2 i hi hip
      · refine List.pairwise_cons.2 ⟨fun j hj => ?_, h4⟩
        have := hfr j hj
        exact hR j ⟨this.1, fun hs => this.2 (by simp [hs])⟩
      · intro i hi j hj hjs hjr
        rcases List.mem_cons.1 hi with rfl | hi
        · exact hR j ⟨hj, hjs⟩
        · exact h6 i hi j hj (by simp only [List.mem_append, List.mem_singleton, not_or]
                                 exact ⟨hjs, fun h => hjr (by simp [h])⟩) (fun h => hjr (by simp [h]))
      · intro _ j hj hjs
        exact absurd (hall j hj) hjs

/-- A chosen sequence is a valid selection. -/
theorem ChosenBy.valid {P : Finset Nat → Nat → Prop} {N : Nat} {prefer prev : Finset Nat}
    (hpref : prefer ⊆ Finset.range N) {r : List Nat}
    (h : ChosenBy P (prefer \ prev) (Finset.range N \ prev) [] r) :
    ValidSelection N r.length prefer prev r := by
  have hpa : prefer \ prev ⊆ Finset.range N \ prev :=
    Finset.sdiff_subset_sdiff hpref (Finset.Subset.refl _)
  have hfr : ∀ i ∈ r, i < N ∧ i ∉ prev := by
    intro i hi
    simpa using (h.fresh hpa i hi).1
  have h' : ChosenBy (fun S i => ∀ j ∈ S, True) (prefer \ prev) (Finset.range N \ prev) [] r :=
    h.mono (fun _ _ _ _ _ => trivial)
  obtain ⟨p, q, hr, h1, h2, -, -, -, -, h7⟩ := ChosenBy.ordered (R := fun _ _ => True) hpa h'
  refine ⟨rfl, h.nodup hpa, hfr, ?_, ?_⟩
  · intro j k a b hjk ha hb hbp
    have hbr : b ∈ r := List.mem_of_getElem? hb
    have hb' : b ∈ prefer \ prev := by simp [hbp, (hfr b hbr).2]
    have hk : k < p.length := by
      by_contra hk
      rw [hr, List.getElem?_append_right (by omega)] at hb
      exact h2 b (List.mem_of_getElem? hb) hb'
    rw [hr, List.getElem?_append_left (by omega)] at ha
    have := h1 a (List.mem_of_getElem? ha)
    simp only [Finset.mem_sdiff] at this
    exact this.1
  · rintro ⟨i, hi, hip⟩ j hj hjp
    refine h7 ?_ j (by simp [hj, hjp]) (by simp)
    rintro rfl
    rw [List.append_nil] at hr
    subst hr
    have := h1 i hi
    simp only [Finset.mem_sdiff] at this
    exact hip this.1

/-! ### Single choices -/

section pick
variable {K : Type*} [LinearOrder K]

theorem gather_ok (a : List K) (idx : List Nat) (h : ∀ i ∈ idx, i < a.length) :
    ∃ v, gather a idx = .ok v ∧ v.length = idx.length ∧
      ∀ (k i : Nat), idx[k]? = some i → v[k]? = a[i]? := by
  induction idx with
  | nil => exact ⟨[], rfl, rfl, by simp⟩
  | cons i rest ih =>
    obtain ⟨v, hv, hl, hk⟩ := ih (fun j hj => h j (by simp [hj]))
    have hi : i < a.length := h i (by simp)
    refine ⟨a[i] :: v, ?_, by simp [hl], ?_⟩
    · simp only [gather, List.getElem?_eq_getElem hi, hv]
    · intro k j hkj
      cases k with
      | zero =>
        simp only [List.getElem?_cons_zero, Option.some.injEq] at hkj
        subst hkj
        simp [hi]
      | succ k =>
        simp only [List.getElem?_cons_succ] at hkj ⊢
        exact hk k j hkj

/-- `pickMax` returns an index of the list whose value is largest. -/
theorem pickMax_ok (idx : List Nat) (v : List K) (hl : v.length = idx.length) (hne : idx ≠ []) :
    ∃ (k i : Nat), pickMax idx v = .ok i ∧ idx[k]? = some i ∧ ∃ x, v[k]? = some x ∧ ∀ y ∈ v, y ≤ x := by
  have hv : v ≠ [] := by
    intro h; subst h; exact hne (List.length_eq_zero_iff.1 (by simpa using hl.symm))
  obtain ⟨k, hk⟩ := npArgmax_isOk hv
  obtain ⟨x, hx, hmax, _⟩ := npArgmax_spec hk
  have hkl : k < idx.length := by
    rw [← hl]; exact (List.getElem?_eq_some_iff.1 hx).1
  refine ⟨k, idx[k], ?_, List.getElem?_eq_getElem hkl, x, hx, hmax⟩
  simp only [pickMax, hk, List.getElem?_eq_getElem hkl]

theorem pickMin_ok (idx : List Nat) (v : List K) (hl : v.length = idx.length) (hne : idx ≠ []) :
    ∃ (k i : Nat), pickMin idx v = .ok i ∧ idx[k]? = some i ∧ ∃ x, v[k]? = some x ∧ ∀ y ∈ v, x ≤ y := by
  have hv : v ≠ [] := by
    intro h; subst h; exact hne (List.length_eq_zero_iff.1 (by simpa using hl.symm))
  obtain ⟨k, hk⟩ := npArgmin_isOk hv
  obtain ⟨x, hx, hmin, _⟩ := npArgmin_spec hk
  have hkl : k < idx.length := by
    rw [← hl]; exact (List.getElem?_eq_some_iff.1 hx).1
  refine ⟨k, idx[k], ?_, List.getElem?_eq_getElem hkl, x, hx, hmin⟩
  simp only [pickMin, hk, List.getElem?_eq_getElem hkl]

theorem ord_ne_nil {ord : Finset Nat → List Nat} (hord : Enumerates ord) {S : Finset Nat}
    (hS : S.Nonempty) : ord S ≠ [] := by
  obtain ⟨i, hi⟩ := hS
  intro h
  have := (hord S i).2 hi
  simp [h] at this

/-- Gather then argmax picks a best member. -/
theorem gather_pickMax {ord : Finset Nat → List Nat} (hord : Enumerates ord) (mu : List K)
    {S : Finset Nat} (hS : S.Nonempty) (hsub : S ⊆ Finset.range mu.length) :
    ∃ v i, gather mu (ord S) = .ok v ∧ pickMax (ord S) v = .ok i ∧ IsBestIn mu S i := by
  have hb : ∀ i ∈ ord S, i < mu.length := fun i hi => by simpa using hsub ((hord S i).1 hi)
  obtain ⟨v, hv, hl, hk⟩ := gather_ok mu (ord S) hb
  obtain ⟨k, i, hp, hki, x, hx, hmax⟩ := pickMax_ok (ord S) v hl (ord_ne_nil hord hS)
  refine ⟨v, i, hv, hp, (hord S i).1 (List.mem_of_getElem? hki), ?_⟩
  intro j hj a b ha hb'
  obtain ⟨kj, hkj⟩ := List.mem_iff_getElem?.1 ((hord S j).2 hj)
  have h1 := hk k i hki
  have h2 := hk kj j hkj
  rw [hx, ha] at h1
  rw [hb'] at h2
  rw [← Option.some.inj h1]
  exact hmax b (List.mem_of_getElem? h2)

theorem gather_pickMin {ord : Finset Nat → List Nat} (hord : Enumerates ord) (mu : List K)
    {S : Finset Nat} (hS : S.Nonempty) (hsub : S ⊆ Finset.range mu.length) :
    ∃ v i, gather mu (ord S) = .ok v ∧ pickMin (ord S) v = .ok i ∧ i ∈ S ∧ ∀ j ∈ S, ValueLE mu i j := by
  have hb : ∀ i ∈ ord S, i < mu.length := fun i hi => by simpa using hsub ((hord S i).1 hi)
  obtain ⟨v, hv, hl, hk⟩ := gather_ok mu (ord S) hb
  obtain ⟨k, i, hp, hki, x, hx, hmin⟩ := pickMin_ok (ord S) v hl (ord_ne_nil hord hS)
  refine ⟨v, i, hv, hp, (hord S i).1 (List.mem_of_getElem? hki), ?_⟩
  intro j hj a b ha hb'
  obtain ⟨kj, hkj⟩ := List.mem_iff_getElem?.1 ((hord S j).2 hj)
  have h1 := hk k i hki
  have h2 := hk kj j hkj
  rw [hx, ha] at h1
  rw [hb'] at h2
  rw [← Option.some.inj h1]
  exact hmin b (List.mem_of_getElem? h2)

/-- `select_best`. -/
theorem selectBest_ok {ord : Finset Nat → List Nat} (hord : Enumerates ord) (mu : List K)
    (prefer prev : Finset Nat) (hpref : prefer ⊆ Finset.range mu.length)
    (hne : Finset.range mu.length \ prev ≠ ∅) :
    ∃ i, selectBest ord mu prefer prev = .ok i ∧
      IsBestIn mu (if prefer \ prev = ∅ then Finset.range mu.length \ prev else prefer \ prev) i := by
  set S := if prefer \ prev = ∅ then Finset.range mu.length \ prev else prefer \ prev with hSdef
  have hS : S ≠ ∅ := by
    rw [hSdef]; split
    · exact hne
    · assumption
  have hsub : S ⊆ Finset.range mu.length := by
    rw [hSdef]; split
    · exact Finset.sdiff_subset
    · exact Finset.sdiff_subset.trans hpref
  obtain ⟨v, i, hv, hp, hb⟩ := gather_pickMax hord mu (Finset.nonempty_iff_ne_empty.2 hS) hsub
  refine ⟨i, ?_, hb⟩
  simp only [selectBest, ← hSdef, hS, if_false, hv, hp]

end pick

/-! ### The whole `select` -/

section select
variable {K : Type*} [LinearOrder K]

theorem sdiff_insert_taken (p s : Finset Nat) (b : Nat) (l : List Nat) (hb : b ∈ l) :
    (p \ insert b s) \ l.toFinset = (p \ s) \ l.toFinset := by
  ext x
  simp only [Finset.mem_sdiff, Finset.mem_insert, List.mem_toFinset]
  constructor
  · rintro ⟨⟨h1, h2⟩, h3⟩
    exact ⟨⟨h1, fun h => h2 (.inr h)⟩, h3⟩
  · rintro ⟨⟨h1, h2⟩, h3⟩
    refine ⟨⟨h1, ?_⟩, h3⟩
    rintro (rfl | h)
    · exact h3 hb
    · exact h2 h

theorem ChosenBy.insert_prev {P : Finset Nat → Nat → Prop} {p a s : Finset Nat} {b : Nat}
    {sel r : List Nat} (hb : b ∈ sel) (h : ChosenBy P (p \ insert b s) (a \ insert b s) sel r) :
    ChosenBy P (p \ s) (a \ s) sel r := by
  induction r generalizing sel with
  | nil => trivial
  | cons x r ih =>
    have hc : choiceSet (p \ insert b s) (a \ insert b s) sel = choiceSet (p \ s) (a \ s) sel := by
      unfold choiceSet
      rw [sdiff_insert_taken p s b sel hb, sdiff_insert_taken a s b sel hb]
    obtain ⟨h1, h2, h3⟩ := h
    rw [hc] at h1 h2
    exact ⟨h1, h2, ih (by simp [hb]) h3⟩

theorem learnerSelect_cases {P : Finset Nat → Nat → Prop} (L : Learner) (ab pf : Bool)
    (mx : Option Nat) {ord : Finset Nat → List Nat}
    (hord : Enumerates ord) (mu : List K) (n : Nat) (prefer prev : Finset Nat)
    (hno : L.pair = none ∨ pf = false ∨ (ab = true ∧ prev = ∅))
    (hpref : prefer ⊆ Finset.range mu.length) (hn : 0 < effAlts mx n)
    (hg : ∀ t S p, S.Nonempty → S ⊆ Finset.range mu.length → ∃ i ∈ S, L.greedy t S p = .ok i ∧ P S i) :
    (effAlts mx n ≤ (Finset.range mu.length \ prev).card →
      ∃ sel, learnerSelect L ab pf mx ord mu n prefer prev = .ok sel ∧ sel.length = effAlts mx n ∧
        ((ab = true ∧ prev = ∅) → ∃ b r, sel = b :: r ∧
          IsBestIn mu (choiceSet (prefer \ prev) (Finset.range mu.length \ prev) []) b ∧
          ChosenBy P (prefer \ prev) (Finset.range mu.length \ prev) [b] r) ∧
        (¬ (ab = true ∧ prev = ∅) →
          ChosenBy P (prefer \ prev) (Finset.range mu.length \ prev) [] sel)) ∧
    ((Finset.range mu.length \ prev).card < effAlts mx n →
      learnerSelect L ab pf mx ord mu n prefer prev = .error .exception) := by
  set m := effAlts mx n with hm
  have hsd : ∀ s : Finset Nat, s \ ([] : List Nat).toFinset = s := by intro s; simp
  by_cases hab : ab = true ∧ prev = ∅
  · obtain ⟨hab1, rfl⟩ := hab
    subst hab1
    by_cases hne : Finset.range mu.length \ ∅ = ∅
    · constructor
      · intro h; rw [hne] at h; simp at h; omega
      · intro _
        have hp0 : prefer \ ∅ = ∅ := by
          have : prefer ⊆ ∅ := by
            refine hpref.trans ?_
            rw [← hne]; simp
          rw [Finset.subset_empty.1 this]; simp
        simp [learnerSelect, startSelection, selectBest, hp0, hne]
    · obtain ⟨b, hb, hbest⟩ := selectBest_ok hord mu prefer ∅ hpref hne
      have hstart : startSelection true ord mu prefer ∅ = .ok ([b], insert b ∅) := by
        simp [startSelection, hb]
      have hbest' : IsBestIn mu (choiceSet (prefer \ ∅) (Finset.range mu.length \ ∅) []) b := by
        have : choiceSet (prefer \ ∅) (Finset.range mu.length \ ∅) [] =
            if prefer \ ∅ = ∅ then Finset.range mu.length \ ∅ else prefer \ ∅ := by
          unfold choiceSet
          rw [hsd, hsd]
          by_cases h : prefer \ ∅ = ∅ <;> simp [h]
        rw [this]; exact hbest
      have hbN : b ∈ Finset.range mu.length := by
        have h1 := hbest.1
        split at h1
        · simpa using h1
        · exact hpref (by simpa using h1)
      have hpa : prefer \ insert b ∅ ⊆ Finset.range mu.length \ insert b ∅ :=
        Finset.sdiff_subset_sdiff hpref (Finset.Subset.refl _)
      have hloop : learnerSelect L true pf mx ord mu n prefer ∅ =
          greedyRun L.greedy (prefer \ insert b ∅) (Finset.range mu.length \ insert b ∅) (insert b ∅)
            (m - 1) 0 [b] := by
        simp only [learnerSelect, hstart, ← hm]
        rw [selectLoop_eq_greedyRun L pf mu.length m (insert b ∅) (prefer \ insert b ∅) m 0 [b] _ none
          (.inr (.inr (by simp))) (by ext x; simp) (.inl rfl) (by simp)]
        simp
      have hcard : ((Finset.range mu.length \ insert b ∅) \ [b].toFinset).card =
          (Finset.range mu.length \ ∅).card - 1 := by
        rw [← Finset.card_erase_of_mem (show b ∈ Finset.range mu.length \ ∅ by simpa using hbN)]
        congr 1
        ext x; simp; tauto
      have hgP : ∀ t S p, S.Nonempty → S ⊆ Finset.range mu.length \ insert b ∅ →
          ∃ i ∈ S, L.greedy t S p = .ok i ∧ P S i :=
        fun t S p h1 h2 => hg t S p h1 (h2.trans Finset.sdiff_subset)
      constructor
      · intro hle
        obtain ⟨r, hr, hlen, hch⟩ := greedyRun_ok (P := P) (prev := insert b ∅) hpa hgP (m - 1) 0 [b]
          (by rw [hcard]; omega)
        refine ⟨[b] ++ r, by rw [hloop, hr], by simp [hlen]; omega, ?_, ?_⟩
        · intro _
          exact ⟨b, r, rfl, hbest', hch.insert_prev (by simp)⟩
        · intro h; simp at h
      · intro hlt
        rw [hloop]
        refine greedyRun_err hpa (fun t S p h1 h2 => ?_) _ _ _ (by
          rw [hcard]
          have : 0 < (Finset.range mu.length \ ∅).card := Finset.card_pos.2 ⟨b, by simpa using hbN⟩
          omega)
        obtain ⟨i, h3, h4, _⟩ := hgP t S p h1 h2
        exact ⟨i, h3, h4⟩
  · have hstart : startSelection ab ord mu prefer prev = .ok ([], prev) := by
      simp only [startSelection, hab, if_false]
    have hpa : prefer \ prev ⊆ Finset.range mu.length \ prev :=
      Finset.sdiff_subset_sdiff hpref (Finset.Subset.refl _)
    have hloop : learnerSelect L ab pf mx ord mu n prefer prev =
        greedyRun L.greedy (prefer \ prev) (Finset.range mu.length \ prev) prev m 0 [] := by
      simp only [learnerSelect, hstart, ← hm]
      rw [selectLoop_eq_greedyRun L pf mu.length m prev (prefer \ prev) m 0 [] _ none
        (hno.imp_right fun h => .inl (h.resolve_right hab)) (by simp) (.inl rfl) (by simp)]
      simp
    have hgP : ∀ t S p, S.Nonempty → S ⊆ Finset.range mu.length \ prev →
        ∃ i ∈ S, L.greedy t S p = .ok i ∧ P S i :=
      fun t S p h1 h2 => hg t S p h1 (h2.trans Finset.sdiff_subset)
    constructor
    · intro hle
      obtain ⟨r, hr, hlen, hch⟩ := greedyRun_ok (P := P) (prev := prev) hpa hgP m 0 [] (by rw [hsd]; exact hle)
      refine ⟨r, by rw [hloop, hr]; simp, hlen, fun h => absurd h hab, fun _ => hch⟩
    · intro hlt
      rw [hloop]
      refine greedyRun_err hpa (fun t S p h1 h2 => ?_) _ _ _ (by rw [hsd]; exact hlt)
      obtain ⟨i, h3, h4, _⟩ := hgP t S p h1 h2
      exact ⟨i, h3, h4⟩

end select

end Lop
