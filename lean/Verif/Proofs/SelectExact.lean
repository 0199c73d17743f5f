import Verif.Proofs.SelectRet

/-! When `select` with `return_not_selected` raises. -/

namespace Lop

open Spec

/-- The state of the loop from which the exception follows, for a learner greedy by the score `f`. -/
def RetDoomed {S : Type*} [LinearOrder S] (f : Nat → S) (k : Nat) (s : RetState) : Prop :=
  s.sel.length < k ∧ (s.alln = ∅ ∨ s.sel.length + s.nsel.length + s.alln.card < k ∨
    (s.sel.length + s.pref.card < k ∧ ∃ m ∈ s.pref, ∀ j ∈ s.alln, f m ≤ f j))

theorem RetInv.pref_sub {N : Nat} {P A : Finset Nat} (hPA : P ⊆ A) {s : RetState}
    (h : RetInv N P A s) : s.pref ⊆ s.alln := by
  intro x hx
  rw [h.pref_eq] at hx
  rw [h.alln_eq]
  simp only [Finset.mem_sdiff, List.mem_toFinset] at hx ⊢
  refine ⟨hPA hx.1, ?_⟩
  simp only [List.mem_append, not_or]
  exact ⟨hx.2, fun hxn => (h.nsel_sub x hxn).2.1 hx.1⟩

theorem picks_of_greedyBy {S : Type*} [LinearOrder S] {f : Nat → S} {N : Nat} {L : Learner}
    (h : GreedyBy N f L) : PicksMember N L := by
  intro t idx prev hne hsub
  obtain ⟨i, hi, hg, -⟩ := h t idx prev hne hsub
  exact ⟨i, hi, hg⟩

/-- One pass neither creates nor removes doom. -/
theorem retStep_doomed {S : Type*} [LinearOrder S] {f : Nat → S} {N : Nat} {P A : Finset Nat}
    (hPA : P ⊆ A) (hAN : A ⊆ Finset.range N) (hf : Set.InjOn f A) (L : Learner) (hL : GreedyBy N f L)
    (pf : Bool) (k : Nat) (prev : Finset Nat) (hno : L.pair = none ∨ pf = false ∨ prev ≠ ∅) (t : Nat)
    {s s' : RetState} (h : RetInv N P A s) (hne : s.alln ≠ ∅) (hlt : s.sel.length < k)
    (hs : retStep L pf k prev t s = .ok s') : RetDoomed f k s' ↔ RetDoomed f k s := by
  have hpair : (if prev = ∅ ∧ pf = true ∧ k - s.sel.length > 1 then L.pair else none) = none := by
    rcases hno with hno | hno | hno <;> simp [hno]
  have hsub := h.pref_sub hPA
  have hAs : s.alln ⊆ A := h.alln_eq ▸ Finset.sdiff_subset
  have hpos : 0 < s.alln.card := Finset.card_pos.2 (Finset.nonempty_iff_ne_empty.2 hne)
  by_cases hcase : s.pref = ∅ ∧ s.nsel ≠ []
  · obtain ⟨hp, hn⟩ := hcase
    obtain ⟨i, ns, hns⟩ := List.exists_cons_of_ne_nil hn
    have hia : i ∉ s.alln := by rw [h.alln_eq]; simp [hns]
    have hres : s' = { s with sel := s.sel ++ [i], nsel := ns, pref := ∅, alln := s.alln } := by
      have : retStep L pf k prev t s = .ok (retPlace i { s with nsel := ns }) := by
        simp [retStep, hp, hns]
      rw [this] at hs
      cases hs
      simp [retPlace, hp, Finset.erase_eq_of_notMem hia]
    subst hres
    simp only [RetDoomed, List.length_append, List.length_nil, hne, hp, hns, List.length_cons,
      Finset.notMem_empty, false_and, exists_false, and_false, or_false, false_or]
    omega
  · obtain ⟨i, hi, hg, hmax⟩ := hL t s.alln (prev ∪ s.sel.toFinset)
      (Finset.nonempty_iff_ne_empty.2 hne) (hAs.trans hAN)
    have hstep : retStep L pf k prev t s = .ok (retPlace i s) := by
      unfold retStep
      by_cases hp : s.pref = ∅
      · have hn : s.nsel = [] := by
          by_contra hn; exact hcase ⟨hp, hn⟩
        simp only [hp, hn, decide_true]
        rw [hpair, hg]
      · simp only [hp, decide_false]
        rw [hpair, hg]
    rw [hstep] at hs
    cases hs
    have hc1 : (s.alln.erase i).card = s.alln.card - 1 := Finset.card_erase_of_mem hi
    by_cases hip : i ∈ s.pref
    · have hc2 : (s.pref.erase i).card = s.pref.card - 1 := Finset.card_erase_of_mem hip
      have hp0 : 0 < s.pref.card := Finset.card_pos.2 ⟨i, hip⟩
      have hpc : s.pref.card ≤ s.alln.card := Finset.card_le_card hsub
      simp only [retPlace, hip, true_or, if_true, RetDoomed, List.length_append, List.length_singleton,
        hc1, hc2, hne, false_or]
      constructor
      · rintro ⟨h1, h2 | h2 | ⟨h2, m, hm, hmin⟩⟩
        · refine ⟨hlt, .inr ⟨?_, i, hip, ?_⟩⟩
          · have : s.alln.card - 1 = 0 := by rw [← hc1, h2]; rfl
            omega
          · intro j hj
            by_cases hji : j = i
            · rw [hji]
            · have : j ∈ s.alln.erase i := Finset.mem_erase.2 ⟨hji, hj⟩
              simp [h2] at this
        · exact ⟨hlt, .inl (by omega)⟩
        · refine ⟨hlt, .inr ⟨by omega, m, Finset.mem_of_mem_erase hm, ?_⟩⟩
          intro j hj
          by_cases hji : j = i
          · rw [hji]; exact hmax m (hsub (Finset.mem_of_mem_erase hm))
          · exact hmin j (Finset.mem_erase.2 ⟨hji, hj⟩)
      · rintro ⟨h1, h2 | ⟨h2, m, hm, hmin⟩⟩
        · exact ⟨by omega, .inr (.inl (by omega))⟩
        · refine ⟨by omega, ?_⟩
          by_cases hmi : m = i
          · left
            subst hmi
            apply Finset.eq_empty_of_forall_notMem
            intro j hj
            obtain ⟨hjm, hja⟩ := Finset.mem_erase.1 hj
            exact hjm (hf (hAs hja) (hAs hi) (le_antisymm (hmax j hja) (hmin j hja)))
          · exact .inr (.inr ⟨by omega, m, Finset.mem_erase.2 ⟨hmi, hm⟩,
              fun j hj => hmin j (Finset.mem_of_mem_erase hj)⟩)
    · by_cases hp : s.pref = ∅
      · have hn : s.nsel = [] := by
          by_contra hn; exact hcase ⟨hp, hn⟩
        simp only [retPlace, hp, or_true, if_true, RetDoomed, List.length_append, List.length_singleton,
          hc1, hne, hn, List.length_nil, Finset.erase_empty, Finset.notMem_empty, false_and, exists_false,
          and_false, or_false, false_or]
        constructor
        · rintro ⟨h1, h2 | h2⟩
          · have : s.alln.card - 1 = 0 := by rw [← hc1, h2]; rfl
            omega
          · omega
        · rintro ⟨h1, h2⟩
          exact ⟨by omega, .inr (by omega)⟩
      · have hne' : s.alln.erase i ≠ ∅ := by
          obtain ⟨x, hx⟩ := Finset.nonempty_iff_ne_empty.2 hp
          have : x ∈ s.alln.erase i := Finset.mem_erase.2 ⟨by rintro rfl; exact hip hx, hsub hx⟩
          exact Finset.ne_empty_of_mem this
        simp only [retPlace, hip, hp, or_false, if_false, RetDoomed, List.length_append,
          List.length_singleton, hc1, hne, hne', false_or]
        refine and_congr_right fun _ => or_congr ?_ (and_congr_right fun _ => ?_)
        · omega
        · refine exists_congr fun m => and_congr_right fun hm => ⟨fun hmin j hj => ?_, fun hmin j hj => ?_⟩
          · by_cases hji : j = i
            · rw [hji]; exact hmax m (hsub hm)
            · exact hmin j (Finset.mem_erase.2 ⟨hji, hj⟩)
          · exact hmin j (Finset.mem_of_mem_erase hj)

/-- The loop raises exactly from doomed states. -/
theorem retLoop_doomed {S : Type*} [LinearOrder S] {f : Nat → S} {N : Nat} {P A : Finset Nat}
    (hPA : P ⊆ A) (hAN : A ⊆ Finset.range N) (hf : Set.InjOn f A) (L : Learner) (hL : GreedyBy N f L)
    (pf : Bool) (k : Nat) (prev : Finset Nat) (hno : L.pair = none ∨ pf = false ∨ prev ≠ ∅)
    (fuel t : Nat) (s : RetState) (h : RetInv N P A s) (hle : s.sel.length ≤ k)
    (hfuel : retMeasure s < fuel) :
    retLoop L pf k prev fuel t s = some (.error .exception) ↔ RetDoomed f k s := by
  induction fuel generalizing t s with
  | zero => omega
  | succ fuel ih =>
    by_cases hc : s.sel.length < k ∧ s.alln ≠ ∅
    · obtain ⟨s', hs', hinv, hm, -, hl2, -, -⟩ := retStep_spec hPA hAN L (picks_of_greedyBy hL) pf k prev hno t h hc.2
      simp only [retLoop]
      rw [if_pos hc, hs', ← retStep_doomed hPA hAN hf L hL pf k prev hno t h hc.2 hc.1 hs']
      exact ih (t + 1) s' hinv (by omega) (by omega)
    · simp only [retLoop]
      rw [if_neg hc]
      by_cases hk : s.sel.length = k
      · simp [hk, RetDoomed]
      · have hlt : s.sel.length < k := by omega
        have h0 : s.alln = ∅ := by
          by_contra h0; exact hc ⟨hlt, h0⟩
        simp [hk, RetDoomed, hlt, h0]

end Lop
