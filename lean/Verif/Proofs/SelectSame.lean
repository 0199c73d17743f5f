import Verif.Proofs.SelectExact

/-! The selection with and without `return_not_selected`. -/

namespace Lop

open Spec

theorem ChosenBy.snoc {Q : Finset Nat → Nat → Prop} {pref avail : Finset Nat} {sel r : List Nat} {a : Nat}
    (h : ChosenBy Q pref avail sel r) (ha : a ∈ choiceSet pref avail (sel ++ r))
    (hQ : Q (choiceSet pref avail (sel ++ r)) a) : ChosenBy Q pref avail sel (r ++ [a]) := by
  induction r generalizing sel with
  | nil => exact ⟨by simpa using ha, by simpa using hQ, trivial⟩
  | cons x r ih => exact ⟨h.1, h.2.1, ih h.2.2 (by simpa using ha) (by simpa using hQ)⟩

/-- Choosing by different scores leaves no freedom. -/
theorem ChosenBy.unique {S : Type*} [LinearOrder S] {f : Nat → S} {pref avail : Finset Nat}
    (hpa : pref ⊆ avail) (hf : Set.InjOn f avail) {sel r r' : List Nat}
    (h : ChosenBy (fun T i => ∀ j ∈ T, f j ≤ f i) pref avail sel r)
    (h' : ChosenBy (fun T i => ∀ j ∈ T, f j ≤ f i) pref avail sel r') (hl : r.length = r'.length) :
    r = r' := by
  induction r generalizing sel r' with
  | nil => exact (List.length_eq_zero_iff.1 (by simpa using hl.symm)).symm
  | cons a r ih =>
    cases r' with
    | nil => simp at hl
    | cons b r' =>
      have hA := (choiceSet_subset hpa sel).trans Finset.sdiff_subset
      have hab : a = b := hf (hA h.1) (hA h'.1) (le_antisymm (h'.2.1 a h.1) (h.2.1 b h'.1))
      subst hab
      rw [ih h.2.2 h'.2.2 (by simpa using hl)]

/-- What more holds of the loop for a learner greedy by the score `f`, started with `s0` selected. -/
structure RetOrd {S : Type*} [LinearOrder S] (f : Nat → S) (k : Nat) (P A : Finset Nat) (s0 : List Nat)
    (s : RetState) : Prop where
  chosen : ∃ r, s.sel = s0 ++ r ∧ ChosenBy (fun T i => ∀ j ∈ T, f j ≤ f i) P A s0 r
  above : ∀ x ∈ s.nsel, ∀ j ∈ s.alln, f j ≤ f x
  desc : s.nsel.Pairwise fun x y => f y ≤ f x
  below : ∀ p ∈ s.sel, p ∉ s0 → p ∈ P → ∀ j ∈ s.alln, f j ≤ f p
  why : s.pref = ∅ ∨ s.sel.length = k → ∀ x ∈ s.nsel, ∃ p ∈ s.sel, p ∉ s0 ∧ p ∈ P ∧ f p < f x

theorem retStep_ord {S : Type*} [LinearOrder S] {f : Nat → S} {N : Nat} {P A : Finset Nat}
    (hPA : P ⊆ A) (hAN : A ⊆ Finset.range N) (hf : Set.InjOn f A) (L : Learner) (hL : GreedyBy N f L)
    (pf : Bool) (k : Nat) (prev : Finset Nat) (hno : L.pair = none ∨ pf = false ∨ prev ≠ ∅) (t : Nat)
    {s s' : RetState} {s0 : List Nat} (h : RetInv N P A s) (ho : RetOrd f k P A s0 s) (hne : s.alln ≠ ∅)
    (hlt : s.sel.length < k) (hs : retStep L pf k prev t s = .ok s') : RetOrd f k P A s0 s' := by
  have hpair : (if prev = ∅ ∧ pf = true ∧ k - s.sel.length > 1 then L.pair else none) = none := by
    rcases hno with hno | hno | hno <;> simp [hno]
  have hsub := h.pref_sub hPA
  have hAs : s.alln ⊆ A := h.alln_eq ▸ Finset.sdiff_subset
  have hchoice : choiceSet P A s.sel = if s.pref ≠ ∅ then s.pref else A \ s.sel.toFinset := by
    simp only [choiceSet, ← h.pref_eq]
  have hrest : ∀ j ∈ A \ s.sel.toFinset, j ∈ s.alln ∨ j ∈ s.nsel := by
    intro j hj
    rw [h.alln_eq]
    simp only [Finset.mem_sdiff, List.mem_toFinset, List.mem_append] at hj ⊢
    tauto
  obtain ⟨r, hr, hch⟩ := ho.chosen
  by_cases hcase : s.pref = ∅ ∧ s.nsel ≠ []
  · obtain ⟨hp, hn⟩ := hcase
    obtain ⟨i, ns, hns⟩ := List.exists_cons_of_ne_nil hn
    have hia : i ∉ s.alln := by rw [h.alln_eq]; simp [hns]
    have hin := h.nsel_sub i (by simp [hns])
    have hres : s' = { s with sel := s.sel ++ [i], nsel := ns, pref := ∅, alln := s.alln } := by
      have : retStep L pf k prev t s = .ok (retPlace i { s with nsel := ns }) := by
        simp [retStep, hp, hns]
      rw [this] at hs
      cases hs
      simp [retPlace, hp, Finset.erase_eq_of_notMem hia]
    subst hres
    have hdesc := ho.desc
    rw [hns, List.pairwise_cons] at hdesc
    refine ⟨?_, ?_, hdesc.2, ?_, ?_⟩
    · refine ⟨r ++ [i], by simp [hr], hch.snoc ?_ ?_⟩
      · rw [← hr, hchoice]; simp [hp, hin.1, hin.2.2]
      · rw [← hr, hchoice]
        simp only [hp, ne_eq, not_true_eq_false, if_false]
        intro j hj
        rcases hrest j hj with hj | hj
        · exact ho.above i (by simp [hns]) j hj
        · rw [hns] at hj
          rcases List.mem_cons.1 hj with rfl | hj
          · exact le_rfl
          · exact hdesc.1 j hj
    · exact fun x hx => ho.above x (by simp only at hx; simp [hns, hx])
    · intro p hp' hp0 hpP
      simp only [List.mem_append, List.mem_singleton] at hp'
      rcases hp' with hp' | rfl
      · exact ho.below p hp' hp0 hpP
      · exact absurd hpP hin.2.1
    · intro _ x hx
      obtain ⟨p, h1, h2⟩ := ho.why (.inl hp) x (by simp only at hx; simp [hns, hx])
      exact ⟨p, by simp [h1], h2⟩
  · obtain ⟨i, hi, hg, hmax⟩ := hL t s.alln (prev ∪ s.sel.toFinset)
      (Finset.nonempty_iff_ne_empty.2 hne) (hAs.trans hAN)
    have hstep : retStep L pf k prev t s = .ok (retPlace i s) := by
      unfold retStep
      by_cases hp : s.pref = ∅
      · have hn : s.nsel = [] := by
          by_contra hn; exact hcase ⟨hp, hn⟩
        simp only [hp, hn, decide_true]
        rw [hpair, hg]
      · simp only [hp, decide_false]
        rw [hpair, hg]
    rw [hstep] at hs
    cases hs
    have hi' := hi
    rw [h.alln_eq] at hi'
    simp only [Finset.mem_sdiff, List.mem_toFinset, List.mem_append, not_or] at hi'
    unfold retPlace
    split
    · rename_i hc
      refine ⟨?_, fun x hx j hj => ho.above x hx j (Finset.mem_of_mem_erase hj), ho.desc, ?_, ?_⟩
      · refine ⟨r ++ [i], by simp [hr], hch.snoc ?_ ?_⟩
        · rw [← hr, hchoice]
          rcases hc with hc | hc
          · simp [Finset.ne_empty_of_mem hc, hc]
          · simp [hc, hi'.1, hi'.2.1]
        · rw [← hr, hchoice]
          intro j hj
          split at hj
          · exact hmax j (hsub hj)
          · rename_i hp
            have hn : s.nsel = [] := by
              by_contra hn; exact hcase ⟨not_not.1 hp, hn⟩
            rcases hrest j hj with hj | hj
            · exact hmax j hj
            · simp [hn] at hj
      · intro p hp hp0 hpP j hj
        simp only [List.mem_append, List.mem_singleton] at hp
        rcases hp with hp | rfl
        · exact ho.below p hp hp0 hpP j (Finset.mem_of_mem_erase hj)
        · exact hmax j (Finset.mem_of_mem_erase hj)
      · intro _ x hx
        have hip : i ∈ s.pref := by
          refine hc.resolve_right fun hp => hcase ⟨hp, ?_⟩
          intro hn
          simp [hn] at hx
        have hxs := h.nsel_sub x hx
        refine ⟨i, by simp, fun h0 => hi'.2.1 (by simp [hr, h0]), ?_, lt_of_le_of_ne (ho.above x hx i hi) fun he => ?_⟩
        · rw [h.pref_eq] at hip; exact (Finset.mem_sdiff.1 hip).1
        · exact hi'.2.2 (hf hi'.1 hxs.1 he ▸ hx)
    · rename_i hc
      push Not at hc
      refine ⟨ho.chosen, ?_, ?_, fun p hp hp0 hpP j hj => ho.below p hp hp0 hpP j (Finset.mem_of_mem_erase hj), ?_⟩
      · intro x hx j hj
        simp only [List.mem_append, List.mem_singleton] at hx
        rcases hx with hx | rfl
        · exact ho.above x hx j (Finset.mem_of_mem_erase hj)
        · exact hmax j (Finset.mem_of_mem_erase hj)
      · simp only
        rw [List.pairwise_append]
        refine ⟨ho.desc, by simp, ?_⟩
        intro x hx y hy
        simp only [List.mem_singleton] at hy
        subst hy
        exact ho.above x hx y hi
      · intro hw
        rcases hw with hw | hw
        · exact absurd hw (Finset.nonempty_iff_ne_empty.1 hc.2)
        · simp only at hw; omega

theorem retLoop_ord {S : Type*} [LinearOrder S] {f : Nat → S} {N : Nat} {P A : Finset Nat}
    (hPA : P ⊆ A) (hAN : A ⊆ Finset.range N) (hf : Set.InjOn f A) (L : Learner) (hL : GreedyBy N f L)
    (pf : Bool) (k : Nat) (prev : Finset Nat) (hno : L.pair = none ∨ pf = false ∨ prev ≠ ∅)
    (fuel t : Nat) (s : RetState) (h : RetInv N P A s) {s0 : List Nat} (ho : RetOrd f k P A s0 s) {sel sk : List Nat}
    (hr : retLoop L pf k prev fuel t s = some (.ok (sel, sk))) :
    ∃ s', RetInv N P A s' ∧ RetOrd f k P A s0 s' ∧ s'.sel = sel ∧ s'.nsel = sk ∧ sel.length = k := by
  induction fuel generalizing t s with
  | zero => simp [retLoop] at hr
  | succ fuel ih =>
    simp only [retLoop] at hr
    by_cases hc : s.sel.length < k ∧ s.alln ≠ ∅
    · obtain ⟨s', hs', hinv, -⟩ := retStep_spec hPA hAN L (picks_of_greedyBy hL) pf k prev hno t h hc.2
      rw [if_pos hc, hs'] at hr
      exact ih (t + 1) s' hinv (retStep_ord hPA hAN hf L hL pf k prev hno t h ho hc.2 hc.1 hs') hr
    · rw [if_neg hc] at hr
      by_cases hk : s.sel.length = k
      · simp [hk] at hr
        exact ⟨s, h, ho, hr.1, hr.2, hr.1 ▸ hk⟩
      · simp [hk] at hr

/-- The start with the best candidate already placed. -/
theorem bestStart {K : Type*} [LinearOrder K] {ord : Finset Nat → List Nat} (hord : Enumerates ord)
    (mu : List K) (prefer : Finset Nat) (hpref : prefer ⊆ Finset.range mu.length) (h0 : 0 < mu.length) :
    ∃ b, startSelection true ord mu prefer ∅ = .ok ([b], insert b ∅) ∧ b < mu.length ∧
      IsBestIn mu (if prefer = ∅ then Finset.range mu.length else prefer) b ∧
      RetInv mu.length prefer (Finset.range mu.length)
        ⟨[b], [], prefer \ insert b ∅, (Finset.range mu.length \ insert b ∅) \ [b].toFinset⟩ := by
  have hne : Finset.range mu.length \ ∅ ≠ ∅ := Finset.ne_empty_of_mem (a := 0) (by simpa using h0)
  obtain ⟨b, hb, hbest⟩ := selectBest_ok hord mu prefer ∅ hpref hne
  have hbest' : IsBestIn mu (if prefer = ∅ then Finset.range mu.length else prefer) b := by
    simpa using hbest
  have hbN : b ∈ Finset.range mu.length := by
    have h1 := hbest'.1
    split at h1
    · exact h1
    · exact hpref h1
  refine ⟨b, by simp [startSelection, hb], Finset.mem_range.1 hbN, hbest', by simp, by simp, ?_, by simp,
    by simp, by ext x; simp, ?_⟩
  · intro i hi
    simp only [List.mem_singleton] at hi
    subst hi; exact hbN
  · intro u a w huw haP x hx
    cases u with
    | nil =>
      simp only [List.nil_append, List.cons.injEq] at huw
      obtain ⟨rfl, _⟩ := huw
      have h1 := hbest'.1
      split at h1
      · rename_i h0; simp [h0] at hx
      · exact absurd h1 haP
    | cons c u =>
      have := congrArg List.length huw
      simp at this

end Lop
