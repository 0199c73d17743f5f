import Verif.Proofs.CandOrder

/-! # Helper lemmas: the same candidates in another order, selections with reported skipped points -/

namespace Lop

open Lop.Spec

variable {π : Equiv.Perm Nat}

def renumState (π : Equiv.Perm Nat) (s : RetState) : RetState :=
  ⟨s.sel.map π, s.nsel.map π, renumSet π s.pref, renumSet π s.alln⟩

theorem retPlace_renum (i : Nat) (s : RetState) : retPlace (π i) (renumState π s) = renumState π (retPlace i s) := by
  unfold retPlace renumState
  simp only [mem_renumSet, renumSet_empty, renumSet_erase]
  split <;> simp

/-- The indices of a state are candidates, and what is left to select is neither selected nor excluded. -/
structure RetSane (N : Nat) (prev : Finset Nat) (s : RetState) : Prop where
  sel : ∀ i ∈ s.sel, i < N
  nsel : ∀ i ∈ s.nsel, i < N ∧ i ∉ s.alln
  alln : s.alln ⊆ Finset.range N
  fresh : Disjoint s.alln (prev ∪ s.sel.toFinset)

theorem RetSane.place {N : Nat} {prev : Finset Nat} {s : RetState} (h : RetSane N prev s) {i : Nat} (hi : i < N) :
    RetSane N prev (retPlace i s) := by
  unfold retPlace
  split
  · refine ⟨?_, fun j hj => ⟨(h.nsel j hj).1, fun h2 => (h.nsel j hj).2 (Finset.mem_of_mem_erase h2)⟩,
      (Finset.erase_subset _ _).trans h.alln, ?_⟩
    · intro j hj
      rcases List.mem_append.1 hj with h2 | h2
      · exact h.sel j h2
      · rw [List.mem_singleton.1 h2]
        exact hi
    · rw [Finset.disjoint_left]
      intro j hj
      have := Finset.disjoint_left.1 h.fresh (Finset.mem_of_mem_erase hj)
      simp only [Finset.mem_union, List.mem_toFinset, List.mem_append, List.mem_singleton, not_or] at this ⊢
      exact ⟨this.1, this.2, Finset.ne_of_mem_erase hj⟩
  · refine ⟨h.sel, ?_, (Finset.erase_subset _ _).trans h.alln, h.fresh.mono_left (Finset.erase_subset _ _)⟩
    intro j hj
    rcases List.mem_append.1 hj with h2 | h2
    · exact ⟨(h.nsel j h2).1, fun h3 => (h.nsel j h2).2 (Finset.mem_of_mem_erase h3)⟩
    · rw [List.mem_singleton.1 h2]
      exact ⟨hi, Finset.notMem_erase _ _⟩

/-- The choice of one candidate by `select_greedy`. -/
def retGreedy (L : Learner) (prev : Finset Nat) (t : Nat) (s : RetState) : Except PyErr RetState :=
  (L.greedy t s.alln (prev ∪ s.sel.toFinset)).map fun i => retPlace i s

theorem retStep_cons (L : Learner) (pf : Bool) (k : Nat) (prev : Finset Nat) (t : Nat) (s : RetState) {i : Nat} {ns : List Nat}
    (h1 : s.pref = ∅) (h2 : s.nsel = i :: ns) : retStep L pf k prev t s = .ok (retPlace i { s with nsel := ns }) := by
  obtain ⟨sel, nsel, pref, alln⟩ := s
  simp only at h1 h2
  subst h1 h2
  rfl

theorem retStep_greedy {L : Learner} (hp : L.pair = none) (pf : Bool) (k : Nat) (prev : Finset Nat) (t : Nat) (s : RetState)
    (h : s.pref ≠ ∅ ∨ s.nsel = []) : retStep L pf k prev t s = retGreedy L prev t s := by
  have e : retStep L pf k prev t s = match L.greedy t s.alln (prev ∪ s.sel.toFinset) with
      | .error e => .error e
      | .ok i => .ok (retPlace i s) := by
    obtain ⟨sel, nsel, pref, alln⟩ := s
    simp only [retStep, hp, ite_self]
    rcases h with h | h
    · simp only [ne_eq] at h
      rw [decide_eq_false h]
      cases nsel <;> rfl
    · simp only at h
      subst h
      split
      · simp_all
      · rfl
  rw [e, retGreedy]
  cases L.greedy t s.alln (prev ∪ s.sel.toFinset) <;> rfl

theorem retLoop_renum {N : Nat} {L L' : Learner} (hp : L.pair = none) (hp' : L'.pair = none) (hg : SameGreedy π N L L')
    (hmem : ∀ t idx prev i, L.greedy t idx prev = .ok i → i ∈ idx) (pf : Bool) (k : Nat) {prev : Finset Nat}
    (hprev : prev ⊆ Finset.range N) (fuel : Nat) :
    ∀ (t : Nat) (s : RetState), RetSane N prev s →
      retLoop L' pf k (renumSet π prev) fuel t (renumState π s) =
        (retLoop L pf k prev fuel t s).map fun r => r.map fun q => (q.1.map π, q.2.map π) := by
  induction fuel with
  | zero => intro t s _; rfl
  | succ fuel ih =>
    intro t s hs
    have hstep : retStep L' pf k (renumSet π prev) t (renumState π s) = (retStep L pf k prev t s).map (renumState π) ∧
        ∀ s', retStep L pf k prev t s = .ok s' → RetSane N prev s' := by
      have hseen : prev ∪ s.sel.toFinset ⊆ Finset.range N :=
        Finset.union_subset hprev fun i hi => Finset.mem_range.2 (hs.sel i (List.mem_toFinset.1 hi))
      by_cases h1 : s.pref = ∅ ∧ s.nsel ≠ []
      · obtain ⟨i, ns, hn⟩ := List.exists_cons_of_ne_nil h1.2
        have e3 : ({ renumState π s with nsel := ns.map π } : RetState) = renumState π { s with nsel := ns } := rfl
        rw [retStep_cons L' pf k _ t (renumState π s) (renumSet_empty.2 h1.1) (i := π i) (ns := ns.map π)
          (by simp [renumState, hn]), retStep_cons L pf k _ t s h1.1 hn, e3, retPlace_renum]
        refine ⟨rfl, ?_⟩
        rintro _ ⟨rfl⟩
        refine RetSane.place (s := { s with nsel := ns }) ⟨hs.sel, fun j hj => hs.nsel j (by rw [hn]; exact List.mem_cons_of_mem _ hj), hs.alln,
          hs.fresh⟩ (hs.nsel i (by rw [hn]; exact List.mem_cons_self)).1
      · have h2 : s.pref ≠ ∅ ∨ s.nsel = [] := by
          by_cases h : s.pref = ∅
          · exact .inr (not_not.1 fun h3 => h1 ⟨h, h3⟩)
          · exact .inl h
        have h3 : (renumState π s).pref ≠ ∅ ∨ (renumState π s).nsel = [] := by
          simpa [renumState, renumSet_empty] using h2
        rw [retStep_greedy hp _ _ _ _ _ h2, retStep_greedy hp' _ _ _ _ _ h3]
        have e4 : L'.greedy t (renumState π s).alln (renumSet π prev ∪ (renumState π s).sel.toFinset) =
            (L.greedy t s.alln (prev ∪ s.sel.toFinset)).map π := by
          simp only [renumState]
          rw [renumSet_list, renumSet_union, hg t s.alln _ hs.alln hseen hs.fresh]
        rw [retGreedy, retGreedy, e4]
        cases hgr : L.greedy t s.alln (prev ∪ s.sel.toFinset) with
        | error e => exact ⟨rfl, fun s' h => by cases h⟩
        | ok i =>
          refine ⟨by simp only [Except.map, retPlace_renum], ?_⟩
          rintro _ ⟨rfl⟩
          exact hs.place (Finset.mem_range.1 (hs.alln (hmem _ _ _ _ hgr)))
    have hc : (renumState π s).sel.length < k ∧ (renumState π s).alln ≠ ∅ ↔ s.sel.length < k ∧ s.alln ≠ ∅ := by
      simp [renumState, renumSet_empty]
    simp only [retLoop, hc]
    by_cases h : s.sel.length < k ∧ s.alln ≠ ∅
    · rw [if_pos h, if_pos h, hstep.1]
      cases hr : retStep L pf k prev t s with
      | error e => rfl
      | ok s' => exact ih (t + 1) s' (hstep.2 s' hr)
    · rw [if_neg h, if_neg h]
      have : (renumState π s).sel.length = s.sel.length := by simp [renumState]
      rw [this]
      split <;> rfl

end Lop
