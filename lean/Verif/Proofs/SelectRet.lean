import Verif.Proofs.Select

/-! Selection with reported skipped points, pairs. -/

namespace Lop

open Spec

/-- Invariant of the `return_not_selected` loop. -/
structure RetInv (N : Nat) (P A : Finset Nat) (s : RetState) : Prop where
  sel_nodup : s.sel.Nodup
  nsel_nodup : s.nsel.Nodup
  sel_sub : ∀ i ∈ s.sel, i ∈ A
  nsel_sub : ∀ i ∈ s.nsel, i ∈ A ∧ i ∉ P ∧ i ∉ s.sel
  pref_eq : s.pref = P \ s.sel.toFinset
  alln_eq : s.alln = A \ (s.sel ++ s.nsel).toFinset
  ord : ∀ u a w, s.sel = u ++ a :: w → a ∉ P → ∀ x ∈ P, x ∈ u

theorem RetInv.place {N : Nat} {P A : Finset Nat} {s : RetState} (h : RetInv N P A s)
    {i : Nat} (hiA : i ∈ A) (his : i ∉ s.sel) (hin : i ∉ s.nsel) : RetInv N P A (retPlace i s) := by
  unfold retPlace
  split
  · rename_i hc
    refine ⟨?_, h.nsel_nodup, ?_, ?_, ?_, ?_, ?_⟩
    · simp only
      rw [List.nodup_append]
      refine ⟨h.sel_nodup, by simp, ?_⟩
      intro a ha b hb hab
      simp only [List.mem_singleton] at hb
      subst hb; subst hab; exact his ha
    · intro j hj
      simp only [List.mem_append, List.mem_singleton] at hj
      rcases hj with hj | rfl
      · exact h.sel_sub j hj
      · exact hiA
    · intro j hj
      obtain ⟨h1, h2, h3⟩ := h.nsel_sub j hj
      refine ⟨h1, h2, ?_⟩
      simp only [List.mem_append, List.mem_singleton, not_or]
      exact ⟨h3, fun hji => hin (hji ▸ hj)⟩
    · simp only
      rw [sdiff_append_one, h.pref_eq]
    · simp only
      rw [h.alln_eq]
      ext x; simp; tauto
    · intro u a w huw haP x hx
      simp only at huw
      rcases List.eq_nil_or_concat w with rfl | ⟨w', b, rfl⟩
      · have h1 := List.append_inj' huw (by simp)
        have ha : i = a := by simpa using h1.2
        subst ha
        rw [← h1.1]
        have hpe : s.pref = ∅ := by
          rcases hc with hc | hc
          · rw [h.pref_eq] at hc
            exact absurd (Finset.mem_sdiff.1 hc).1 haP
          · exact hc
        by_contra hxs
        have : x ∈ s.pref := by rw [h.pref_eq]; simp [hx, hxs]
        simp [hpe] at this
      · have : s.sel ++ [i] = (u ++ a :: w') ++ [b] := by simpa using huw
        have h1 := List.append_inj' this (by simp)
        exact h.ord u a w' h1.1 haP x hx
  · rename_i hc
    push Not at hc
    have hiP : i ∉ P := by
      intro hiP
      apply hc.1
      rw [h.pref_eq]; simp [hiP, his]
    refine ⟨h.sel_nodup, ?_, h.sel_sub, ?_, h.pref_eq, ?_, h.ord⟩
    · simp only
      rw [List.nodup_append]
      refine ⟨h.nsel_nodup, by simp, ?_⟩
      intro a ha b hb hab
      simp only [List.mem_singleton] at hb
      subst hb; subst hab; exact hin ha
    · intro j hj
      simp only [List.mem_append, List.mem_singleton] at hj
      rcases hj with hj | rfl
      · exact h.nsel_sub j hj
      · exact ⟨hiA, hiP, his⟩
    · simp only
      rw [h.alln_eq]
      ext x; simp; tauto

/-- The measure that decreases with every pass. -/
def retMeasure (s : RetState) : Nat := 2 * s.alln.card + s.nsel.length

/-- One pass of the loop for a greedy learner. -/
theorem retStep_spec {N : Nat} {P A : Finset Nat} (hPA : P ⊆ A) (hAN : A ⊆ Finset.range N)
    (L : Learner) (hL : PicksMember N L) (pf : Bool) (n : Nat) (prev : Finset Nat) (hno : L.pair = none ∨ pf = false ∨ prev ≠ ∅) (t : Nat)
    {s : RetState} (h : RetInv N P A s) (hne : s.alln ≠ ∅) :
    ∃ s', retStep L pf n prev t s = .ok s' ∧ RetInv N P A s' ∧ retMeasure s' < retMeasure s ∧
      (∃ r, s'.sel = s.sel ++ r) ∧ s'.sel.length ≤ s.sel.length + 1 ∧
      s'.sel.length + s'.nsel.length + s'.alln.card = s.sel.length + s.nsel.length + s.alln.card ∧
      (s'.alln = ∅ → s'.nsel ≠ [] → ∃ x ∈ P, x ∈ s'.sel) := by
  have hpair : (if prev = ∅ ∧ pf = true ∧ n - s.sel.length > 1 then L.pair else none) = none := by
    rcases hno with hno | hno | hno <;> simp [hno]
  by_cases hcase : s.pref = ∅ ∧ s.nsel ≠ []
  · obtain ⟨hp, hn⟩ := hcase
    obtain ⟨i, ns, hns⟩ := List.exists_cons_of_ne_nil hn
    have hstep : retStep L pf n prev t s = .ok (retPlace i { s with nsel := ns }) := by
      simp [retStep, hp, hns]
    have hi := h.nsel_sub i (by simp [hns])
    have hnd := h.nsel_nodup
    rw [hns, List.nodup_cons] at hnd
    have hia : i ∉ s.alln := by rw [h.alln_eq]; simp [hns]
    have hres : retPlace i { s with nsel := ns } =
        { s with
          sel := s.sel ++ [i]
          nsel := ns
          pref := ∅
          alln := s.alln } := by
      simp [retPlace, hp, Finset.erase_eq_of_notMem hia]
    refine ⟨_, hstep, ?_, ?_, ?_, ?_, ?_, ?_⟩
    · rw [hres]
      refine ⟨?_, hnd.2, ?_, ?_, ?_, ?_, ?_⟩
      · simp only
        rw [List.nodup_append]
        refine ⟨h.sel_nodup, by simp, ?_⟩
        intro a ha b hb hab
        simp only [List.mem_singleton] at hb
        subst hb; subst hab; exact hi.2.2 ha
      · intro j hj
        simp only [List.mem_append, List.mem_singleton] at hj
        rcases hj with hj | rfl
        · exact h.sel_sub j hj
        · exact hi.1
      · intro j hj
        obtain ⟨h1, h2, h3⟩ := h.nsel_sub j (by simp only at hj; simp [hns, hj])
        refine ⟨h1, h2, ?_⟩
        simp only [List.mem_append, List.mem_singleton, not_or]
        exact ⟨h3, fun hji => hnd.1 (hji ▸ hj)⟩
      · simp only
        rw [sdiff_append_one, ← h.pref_eq, hp]; simp
      · simp only
        rw [h.alln_eq, hns]
        ext x; simp
      · intro u a w huw haP x hx
        simp only at huw
        rcases List.eq_nil_or_concat w with rfl | ⟨w', b, rfl⟩
        · have h1 := List.append_inj' huw (by simp)
          rw [← h1.1]
          by_contra hxs
          have : x ∈ s.pref := by rw [h.pref_eq]; simp [hx, hxs]
          simp [hp] at this
        · have : s.sel ++ [i] = (u ++ a :: w') ++ [b] := by simpa using huw
          have h1 := List.append_inj' this (by simp)
          exact h.ord u a w' h1.1 haP x hx
    · rw [hres]; simp [retMeasure, hns]
    · rw [hres]; exact ⟨_, rfl⟩
    · rw [hres]; simp
    · rw [hres]; simp [hns]; omega
    · rw [hres]; intro h0; exact absurd h0 hne
  · obtain ⟨i, hi, hg⟩ := hL t s.alln (prev ∪ s.sel.toFinset) (Finset.nonempty_iff_ne_empty.2 hne)
      (h.alln_eq ▸ Finset.sdiff_subset.trans hAN)
    have hstep : retStep L pf n prev t s = .ok (retPlace i s) := by
      unfold retStep
      by_cases hp : s.pref = ∅
      · have hn : s.nsel = [] := by
          by_contra hn; exact hcase ⟨hp, hn⟩
        simp only [hp, hn, decide_true]
        rw [hpair, hg]
      · simp only [hp, decide_false]
        rw [hpair, hg]
    have hi' := hi
    rw [h.alln_eq] at hi'
    simp only [Finset.mem_sdiff, List.mem_toFinset, List.mem_append, not_or] at hi'
    have hinv := h.place hi'.1 hi'.2.1 hi'.2.2
    have hc1 : (s.alln.erase i).card = s.alln.card - 1 := Finset.card_erase_of_mem hi
    have hpos : 0 < s.alln.card := Finset.card_pos.2 ⟨i, hi⟩
    refine ⟨_, hstep, hinv, ?_, ?_, ?_, ?_, ?_⟩
    · unfold retPlace retMeasure; split <;>
        simp only [hc1, List.length_append, List.length_singleton] <;> omega
    · unfold retPlace; split
      · exact ⟨_, rfl⟩
      · exact ⟨[], by simp⟩
    · unfold retPlace; split <;> simp
    · unfold retPlace; split <;> simp [hc1] <;> omega
    · unfold retPlace
      split
      · rename_i hc
        intro _ hn
        simp only at hn
        have hp : s.pref ≠ ∅ := fun hp => hcase ⟨hp, hn⟩
        have : i ∈ s.pref := hc.resolve_right hp
        rw [h.pref_eq] at this
        exact ⟨i, (Finset.mem_sdiff.1 this).1, by simp⟩
      · rename_i hc
        push Not at hc
        intro h0 _
        simp only at h0
        -- the last available point was skipped although a preferred one is left: impossible
        exfalso
        obtain ⟨x, hx⟩ := hc.2
        have hxa : x ∈ s.alln := by
          rw [h.pref_eq] at hx
          rw [h.alln_eq]
          simp only [Finset.mem_sdiff, List.mem_toFinset] at hx ⊢
          refine ⟨hPA hx.1, ?_⟩
          simp only [List.mem_append, not_or]
          exact ⟨hx.2, fun hxn => (h.nsel_sub x hxn).2.1 hx.1⟩
        have hxi : x ≠ i := by rintro rfl; exact hc.1 hx
        have : x ∈ s.alln.erase i := Finset.mem_erase.2 ⟨hxi, hxa⟩
        simp [h0] at this

/-- What is known when the loop has stopped. -/
theorem retLoop_spec {N : Nat} {P A : Finset Nat} (hPA : P ⊆ A) (hAN : A ⊆ Finset.range N)
    (L : Learner) (hL : PicksMember N L) (pf : Bool) (n : Nat) (prev : Finset Nat) (hno : L.pair = none ∨ pf = false ∨ prev ≠ ∅)
    (fuel t : Nat) (s : RetState) (h : RetInv N P A s) (hle : s.sel.length ≤ n)
    (hfuel : retMeasure s < fuel) (hlast : s.alln = ∅ → s.nsel ≠ [] → P ≠ ∅) :
    ∃ s', RetInv N P A s' ∧ (∃ r, s'.sel = s.sel ++ r) ∧ (s'.alln = ∅ → s'.nsel ≠ [] → P ≠ ∅) ∧
      s'.sel.length ≤ n ∧ (s'.sel.length = n ∨ s'.alln = ∅) ∧
      s'.sel.length + s'.nsel.length + s'.alln.card = s.sel.length + s.nsel.length + s.alln.card ∧
      retLoop L pf n prev fuel t s =
        some (if s'.sel.length = n then .ok (s'.sel, s'.nsel) else .error .exception) := by
  induction fuel generalizing t s with
  | zero => omega
  | succ fuel ih =>
    by_cases hc : s.sel.length < n ∧ s.alln ≠ ∅
    · obtain ⟨s', hs', hinv, hm, ⟨r, hr⟩, hl2, hsum, hl⟩ := retStep_spec hPA hAN L hL pf n prev hno t h hc.2
      obtain ⟨s'', h1, ⟨r', hr'⟩, hl', h2, h3, h4, h5⟩ := ih (t + 1) s' hinv (by omega) (by omega) (by
        intro h0 hn hP
        obtain ⟨x, hx, _⟩ := hl h0 hn
        simp [hP] at hx)
      refine ⟨s'', h1, ⟨r ++ r', by rw [hr', hr, List.append_assoc]⟩, hl', h2, h3, by omega, ?_⟩
      simp only [retLoop]
      rw [if_pos hc, hs']
      exact h5
    · refine ⟨s, h, ⟨[], by simp⟩, hlast, hle, ?_, rfl, ?_⟩
      · by_cases hn : s.sel.length = n
        · exact .inl hn
        · right
          by_contra h0
          exact hc ⟨by omega, h0⟩
      · simp only [retLoop]
        rw [if_neg hc]
        by_cases hh : s.sel.length = n <;> simp [hh]

/-- The invariant gives a valid selection. -/
theorem RetInv.valid {N : Nat} {prefer prev : Finset Nat} {s : RetState}
    (h : RetInv N (prefer \ prev) (Finset.range N \ prev) s) :
    ValidSelection N s.sel.length prefer prev s.sel := by
  have hfr : ∀ i ∈ s.sel, i < N ∧ i ∉ prev := fun i hi => by simpa using h.sel_sub i hi
  refine ⟨rfl, h.sel_nodup, hfr, ?_, ?_⟩
  · intro j k a b hjk ha hb hbp
    by_contra hap
    obtain ⟨hj, ha'⟩ := List.getElem?_eq_some_iff.1 ha
    obtain ⟨hk, hb'⟩ := List.getElem?_eq_some_iff.1 hb
    have hsplit : s.sel = s.sel.take j ++ a :: s.sel.drop (j + 1) := by
      rw [← ha', List.cons_getElem_drop_succ, List.take_append_drop]
    have hbs : b ∈ s.sel := List.mem_of_getElem? hb
    have hbu := h.ord _ _ _ hsplit (fun hm => hap (Finset.mem_sdiff.1 hm).1) b
      (Finset.mem_sdiff.2 ⟨hbp, (hfr b hbs).2⟩)
    obtain ⟨i, hi, hib⟩ := List.mem_take_iff_getElem.1 hbu
    have : i = k := (List.Nodup.getElem_inj_iff h.sel_nodup).1 (hib.trans hb'.symm)
    omega
  · rintro ⟨a, ha, hap⟩ x hx hxp
    obtain ⟨u, w, huw⟩ := List.append_of_mem ha
    have := h.ord u a w huw (fun hm => hap (Finset.mem_sdiff.1 hm).1) x (Finset.mem_sdiff.2 ⟨hx, hxp⟩)
    rw [huw]; simp [this]

/-- `select` with `return_not_selected` for a greedy learner: final state. -/
theorem learnerSelectRet_spec {K : Type*} [LinearOrder K] (L : Learner) {mu : List K}
    (hL : PicksMember mu.length L) (ab pf : Bool) (mx : Option Nat) {ord : Finset Nat → List Nat} (hord : Enumerates ord) (n : Nat)
    (prefer prev : Finset Nat) (hno : L.pair = none ∨ pf = false ∨ prev ≠ ∅)
    (hpref : prefer ⊆ Finset.range mu.length) (hn : 0 < effAlts mx n)
    (hne : Finset.range mu.length \ prev ≠ ∅) (fuel : Nat) (hfuel : 2 * mu.length < fuel) :
    ∃ s', RetInv mu.length (prefer \ prev) (Finset.range mu.length \ prev) s' ∧
      (s'.alln = ∅ → s'.nsel ≠ [] → prefer \ prev ≠ ∅) ∧
      s'.sel.length ≤ effAlts mx n ∧ (s'.sel.length = effAlts mx n ∨ s'.alln = ∅) ∧
      s'.sel.length + s'.nsel.length + s'.alln.card = (Finset.range mu.length \ prev).card ∧
      (ab = true → prev = ∅ → ∃ b, s'.sel.head? = some b ∧
        IsBestIn mu (if prefer = ∅ then Finset.range mu.length else prefer) b) ∧
      learnerSelectRet L ab pf mx ord mu n prefer prev fuel =
        some (if s'.sel.length = effAlts mx n then .ok (s'.sel, s'.nsel) else .error .exception) := by
  set m := effAlts mx n with hm
  have hPA : prefer \ prev ⊆ Finset.range mu.length \ prev :=
    Finset.sdiff_subset_sdiff hpref (Finset.Subset.refl _)
  have hAc : (Finset.range mu.length \ prev).card ≤ mu.length := by
    simpa using Finset.card_le_card (Finset.sdiff_subset (s := Finset.range mu.length) (t := prev))
  by_cases hab : ab = true ∧ prev = ∅
  · obtain ⟨rfl, rfl⟩ := hab
    obtain ⟨b, hb, hbest⟩ := selectBest_ok hord mu prefer ∅ hpref hne
    have hbest' : IsBestIn mu (if prefer = ∅ then Finset.range mu.length else prefer) b := by
      simpa using hbest
    have hbN : b ∈ Finset.range mu.length := by
      have h1 := hbest'.1
      split at h1
      · exact h1
      · exact hpref h1
    set s0 : RetState := ⟨[b], [], prefer \ insert b ∅,
      (Finset.range mu.length \ insert b ∅) \ [b].toFinset⟩ with hs0
    have hinv : RetInv mu.length (prefer \ ∅) (Finset.range mu.length \ ∅) s0 := by
      refine ⟨by simp [hs0], by simp [hs0], ?_, by simp [hs0], ?_, ?_, ?_⟩
      · intro i hi
        simp only [hs0, List.mem_singleton] at hi
        subst hi; simpa using hbN
      · ext x; simp [hs0]
      · ext x; simp [hs0]
      · intro u a w huw haP x hx
        cases u with
        | nil =>
          simp only [hs0, List.nil_append, List.cons.injEq] at huw
          obtain ⟨rfl, _⟩ := huw
          have h1 := hbest'.1
          split at h1
          · rename_i h0; simp [h0] at hx
          · exact absurd (by simpa using h1) haP
        | cons c u =>
          have := congrArg List.length huw
          simp [hs0] at this
    have hcard : s0.alln.card + 1 = (Finset.range mu.length \ ∅).card := by
      have : s0.alln = (Finset.range mu.length \ ∅).erase b := by
        ext x; simp [hs0]; tauto
      rw [this]
      exact Finset.card_erase_add_one (by simpa using hbN)
    obtain ⟨s', h1, ⟨r, hr⟩, hl, h2, h3, h4, h5⟩ := retLoop_spec hPA Finset.sdiff_subset L hL pf m (insert b ∅)
      (.inr (.inr (by simp))) fuel 0 s0 hinv (by simp [hs0]; omega)
      (by simp only [retMeasure]; simp only [hs0, List.length_nil] at *; omega)
      (by simp [hs0])
    refine ⟨s', h1, hl, h2, h3, ?_, ?_, ?_⟩
    · rw [h4]; simp only [hs0, List.length_singleton, List.length_nil] at *; omega
    · intro _ _
      exact ⟨b, by rw [hr]; simp [hs0], hbest'⟩
    · rw [← h5]
      simp only [learnerSelectRet, startSelection, hb, and_self, if_true, ← hm, hs0]
  · set s0 : RetState := ⟨[], [], prefer \ prev, (Finset.range mu.length \ prev) \ ([] : List Nat).toFinset⟩
      with hs0
    have hinv : RetInv mu.length (prefer \ prev) (Finset.range mu.length \ prev) s0 := by
      refine ⟨by simp [hs0], by simp [hs0], by simp [hs0], by simp [hs0], by simp [hs0], by simp [hs0], ?_⟩
      intro u a w huw
      simp [hs0] at huw
    have hcard : s0.alln.card = (Finset.range mu.length \ prev).card := by simp [hs0]
    obtain ⟨s', h1, ⟨r, hr⟩, hl, h2, h3, h4, h5⟩ := retLoop_spec hPA Finset.sdiff_subset L hL pf m prev
      hno fuel 0 s0 hinv (by simp [hs0])
      (by simp only [retMeasure]; simp only [hs0, List.length_nil] at *; omega)
      (by simp [hs0])
    refine ⟨s', h1, hl, h2, h3, ?_, ?_, ?_⟩
    · rw [h4, hcard]; simp [hs0]
    · intro h6 h7; exact absurd ⟨h6, h7⟩ hab
    · rw [← h5]
      simp only [learnerSelectRet, startSelection, hab, if_false, ← hm, hs0]

/-! ### Pair picking -/

section pickPair
variable {K : Type*} [LinearOrder K] {N : Nat}

theorem numSameLoop_same (m : Fin N → Fin N → K) (sorted : List (Fin N × Fin N)) (k i cur : Nat)
    (hcur : cur ≤ i)
    (h : ∀ j < i, sorted[j]?.map (offDiag m) = sorted[0]?.map (offDiag m)) :
    ∀ j < numSameLoop m sorted k i cur, sorted[j]?.map (offDiag m) = sorted[0]?.map (offDiag m) := by
  induction k generalizing i cur with
  | zero =>
    intro j hj
    simp only [numSameLoop] at hj
    exact h j (by omega)
  | succ k ih =>
    simp only [numSameLoop]
    split
    · exact h
    · rename_i hs
      push Not at hs
      refine ih (i + 1) i (by omega) ?_
      intro j hj
      by_cases hji : j = i
      · subst hji; exact hs
      · exact h j (by omega)

theorem numSameLoop_pos (m : Fin N → Fin N → K) (sorted : List (Fin N × Fin N)) (k i cur : Nat)
    (hi : 1 ≤ i) (hk : 1 ≤ k) : 1 ≤ numSameLoop m sorted k i cur := by
  induction k generalizing i cur with
  | zero => omega
  | succ k ih =>
    simp only [numSameLoop]
    split
    · exact hi
    · cases k with
      | zero => simpa [numSameLoop] using hi
      | succ k => exact ih (i + 1) i (by omega) (by omega)

theorem firstNotBoth_spec (prev : Finset Nat) (l : List (Fin N × Fin N))
    (h : ∃ q ∈ l, ¬ (q.1.val ∈ prev ∧ q.2.val ∈ prev)) :
    ∃ q pre post, firstNotBoth prev l = some q ∧ l = pre ++ q :: post ∧
      ¬ (q.1.val ∈ prev ∧ q.2.val ∈ prev) ∧ ∀ x ∈ pre, x.1.val ∈ prev ∧ x.2.val ∈ prev := by
  induction l with
  | nil => simp at h
  | cons q l ih =>
    by_cases hq : q.1.val ∈ prev ∧ q.2.val ∈ prev
    · have h' : ∃ q ∈ l, ¬ (q.1.val ∈ prev ∧ q.2.val ∈ prev) := by
        obtain ⟨x, hx, hxn⟩ := h
        rcases List.mem_cons.1 hx with rfl | hx
        · exact absurd hq hxn
        · exact ⟨x, hx, hxn⟩
      obtain ⟨q', pre, post, h1, h2, h3, h4⟩ := ih h'
      refine ⟨q', q :: pre, post, ?_, by simp [h2], h3, ?_⟩
      · cases l with
        | nil => simp at h'
        | cons x l => simp only [firstNotBoth, if_pos hq]; exact h1
      · intro x hx
        rcases List.mem_cons.1 hx with rfl | hx
        · exact hq
        · exact h4 x hx
    · refine ⟨q, [], l, ?_, rfl, hq, by simp⟩
      cases l with
      | nil => rfl
      | cons x l => simp only [firstNotBoth, if_neg hq]

theorem firstNotBoth_all (prev : Finset Nat) (l : List (Fin N × Fin N))
    (h : ∀ q ∈ l, q.1.val ∈ prev ∧ q.2.val ∈ prev) : firstNotBoth prev l = l.getLast? := by
  induction l with
  | nil => rfl
  | cons q l ih =>
    cases l with
    | nil => rfl
    | cons x l =>
      simp only [firstNotBoth, if_pos (h q (by simp))]
      rw [ih (fun y hy => h y (by simp [hy]))]
      simp [List.getLast?_cons_cons]

/-- The drawn candidate pair attains the overall maximum. -/
theorem pick_top {m : Fin N → Fin N → K} {sorted : List (Fin N × Fin N)} (hs : SortedPairs m sorted)
    (hN : 2 ≤ N) (draw : Nat → Nat) (hdraw : ∀ k, 0 < k → draw k < k) :
    numSameLoop m sorted N 0 0 ≠ 0 ∧ ∃ q, sorted[draw (numSameLoop m sorted N 0 0)]? = some q ∧ q.1 ≠ q.2 ∧
      ∀ a b, a ≠ b → m a b ≤ m q.1 q.2 := by
  obtain ⟨N, rfl⟩ : ∃ k, N = k + 2 := ⟨N - 2, by omega⟩
  have hns : 1 ≤ numSameLoop m sorted (N + 2) 0 0 := by
    rw [numSameLoop]
    simp only [ne_eq, not_true_eq_false, if_false]
    exact numSameLoop_pos m sorted (N + 1) 1 0 (by omega) (by omega)
  refine ⟨by omega, ?_⟩
  have hd := hdraw _ (show 0 < numSameLoop m sorted (N + 2) 0 0 by omega)
  have hsame := numSameLoop_same m sorted (N + 2) 0 0 le_rfl (by omega) _ hd
  obtain ⟨hd0, tl, hl⟩ : ∃ q tl, sorted = q :: tl := by
    cases hsd : sorted with
    | nil => have := hs.complete (0, 0); simp [hsd] at this
    | cons q tl => exact ⟨q, tl, rfl⟩
  have hdesc := hs.desc
  rw [hl, List.pairwise_cons] at hdesc
  have hhead : hd0.1 ≠ hd0.2 ∧ ∀ a b, a ≠ b → m a b ≤ m hd0.1 hd0.2 := by
    have key : ∀ a b, a ≠ b → hd0.1 ≠ hd0.2 ∧ m a b ≤ m hd0.1 hd0.2 := by
      intro a b hab
      have hmem := hs.complete (a, b)
      rw [hl] at hmem
      rcases List.mem_cons.1 hmem with h | h
      · rw [← h]; exact ⟨hab, le_rfl⟩
      · exact hdesc.1 _ h hab
    exact ⟨(key 0 1 (by simp [Fin.ext_iff])).1, fun a b hab => (key a b hab).2⟩
  cases hq : sorted[draw (numSameLoop m sorted (N + 2) 0 0)]? with
  | none => rw [hq, hl] at hsame; simp at hsame
  | some q =>
    rw [hq, hl] at hsame
    simp only [Option.map_some, List.getElem?_cons_zero, Option.some.injEq] at hsame
    have h0 : offDiag m hd0 = (m hd0.1 hd0.2 : K) := by simp [offDiag, hhead.1]
    rw [h0] at hsame
    refine ⟨q, rfl, ?_, ?_⟩
    · intro h; simp [offDiag, h] at hsame
    · intro a b hab
      have hqd : q.1 ≠ q.2 := by intro h; simp [offDiag, h] at hsame
      simp only [offDiag, hqd, if_false, WithBot.coe_inj] at hsame
      rw [hsame]
      exact hhead.2 a b hab

end pickPair

end Lop
