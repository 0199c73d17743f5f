import Verif.Proofs.Select
import Verif.Props.Pareto
import Mathlib.Data.Finset.Lattice.Fold

/-! # Properties C44, C47, C48 – greedy selections -/

namespace Lop.Props

open Lop.Spec

section C44
variable {K : Type*} [LinearOrder K]

/-- C44: for every learner whose `select_greedy` returns one of the offered indices (deterministic or
random), without pair selection, every prediction vector, every valid preferred set and every previous
selection: enough unselected candidates give a valid selection (starting with the best candidate if that
was requested and nothing was selected before), too few give an exception. `effAlts` is the number of
alternatives after the cap some learners impose. -/
theorem C44_valid_selection (L : Learner) {mu : List K} (hL : PicksMember mu.length L)
    (alwaysBest pairFirst : Bool) (hno : L.pair = none ∨ pairFirst = false) (maxAlts : Option Nat) {ord : Finset Nat → List Nat}
    (hord : Enumerates ord) (numAlts : Nat) (prefer prev : Finset Nat)
    (hpref : prefer ⊆ Finset.range mu.length) (hn : 0 < effAlts maxAlts numAlts) :
    (effAlts maxAlts numAlts ≤ (Finset.range mu.length \ prev).card →
      ∃ sel, learnerSelect L alwaysBest pairFirst maxAlts ord mu numAlts prefer prev = .ok sel ∧
        ValidSelection mu.length (effAlts maxAlts numAlts) prefer prev sel ∧
        (alwaysBest = true → prev = ∅ → ∃ b, sel.head? = some b ∧
          IsBestIn mu (if prefer = ∅ then Finset.range mu.length else prefer) b)) ∧
    ((Finset.range mu.length \ prev).card < effAlts maxAlts numAlts →
      learnerSelect L alwaysBest pairFirst maxAlts ord mu numAlts prefer prev = .error .exception) := by
  have hg : ∀ t S p, S.Nonempty → S ⊆ Finset.range mu.length →
      ∃ i ∈ S, L.greedy t S p = .ok i ∧ True := by
    intro t S p hS hsub
    obtain ⟨i, hi, h⟩ := hL t S p hS hsub
    exact ⟨i, hi, h, trivial⟩
  obtain ⟨hok, herr⟩ := learnerSelect_cases (P := fun _ _ => True) L alwaysBest pairFirst maxAlts hord
    mu numAlts prefer prev (hno.imp_right .inl) hpref hn hg
  refine ⟨fun hle => ?_, herr⟩
  obtain ⟨sel, hsel, hlen, h1, h2⟩ := hok hle
  refine ⟨sel, hsel, ?_, ?_⟩
  · rw [← hlen]
    by_cases hab : alwaysBest = true ∧ prev = ∅
    · obtain ⟨b, r, rfl, hb, hr⟩ := h1 hab
      exact ChosenBy.valid (P := fun _ _ => True) hpref ⟨hb.1, trivial, hr⟩
    · exact (h2 hab).valid hpref
  · intro hab hprev
    obtain ⟨b, r, rfl, hb, hr⟩ := h1 ⟨hab, hprev⟩
    refine ⟨b, rfl, ?_⟩
    subst hprev
    have hc : choiceSet (prefer \ ∅) (Finset.range mu.length \ ∅) [] =
        if prefer = ∅ then Finset.range mu.length else prefer := by
      by_cases h : prefer = ∅ <;> simp [choiceSet, h]
    rwa [hc] at hb

/-- C44 needs a positive number of alternatives: with `always_select_best`, `select(…, 0)` returns one
point. -/
theorem C44_zero_counterexample :
    learnerSelect (K := Int) ⟨fun _ _ _ => .error .exception, none⟩ true true none
      sortedList [5] 0 {0} ∅ = .ok [0] := by
  decide +kernel

/-- C44 needs valid preferred indices: a preferred set mentioning a point that does not exist gives a
selection with an index outside the candidates. -/
theorem C44_invalid_prefer_counterexample :
    learnerSelect (K := Int) (randomLearner (fun _ => sortedList) (fun _ _ => 0)) false true none
      sortedList [5, 6] 1 {7} ∅ = .ok [7] := by
  decide +kernel

/-- Learners with a cap (absolute-rating learners: 1) return one point whatever was asked for. -/
theorem C44_cap_counterexample :
    learnerSelect (K := Int) (randomLearner (fun _ => sortedList) (fun _ _ => 0)) false true (some 1)
      sortedList [5, 6, 7] 3 {0, 1, 2} ∅ = .ok [0] := by
  decide +kernel

theorem sort_enumerates : Enumerates sortedList := by
  intro s i
  simp only [sortedList, List.mem_filter, List.mem_range, decide_eq_true_eq, and_iff_right_iff_imp]
  intro hi
  exact Nat.lt_succ_of_le (Finset.le_sup (f := id) hi)

/-- The random learner satisfies the hypothesis of C44 for every stream of valid draws. -/
theorem C44_random_learner (ord : Nat → Finset Nat → List Nat) (hord : ∀ t, Enumerates (ord t))
    (draw : Nat → Nat → Nat) (hdraw : ∀ t n, 0 < n → draw t n < n) (N : Nat) :
    PicksMember N (randomLearner ord draw) ∧ (randomLearner ord draw).pair = none := by
  refine ⟨fun t idx prev hne _ => ?_, rfl⟩
  have hl : 0 < (ord t idx).length := List.length_pos_of_ne_nil (ord_ne_nil (hord t) hne)
  have hd := hdraw t _ hl
  refine ⟨(ord t idx)[draw t (ord t idx).length], (hord t idx _).1 (List.getElem_mem _), ?_⟩
  simp only [randomLearner, List.getElem?_eq_getElem hd]
  rw [if_neg (by omega)]

/-- Instance of C44: three candidates, one preferred, one already selected. -/
example : learnerSelect (K := Int) (randomLearner (fun _ => sortedList) (fun _ _ => 0))
    false true none sortedList [5, 6, 7, 8] 2 {3} {1} = .ok [3, 0] := by
  decide +kernel

end C44

section C47
variable {K : Type*} [LinearOrder K]

/-- How the ordered-choice invariant becomes the user-level statement. -/
theorem orderedSelection_of_chosen {R : Nat → Nat → Prop} {N : Nat} {prefer prev : Finset Nat}
    (hpref : prefer ⊆ Finset.range N) {sel : List Nat}
    (h : ChosenBy (fun S i => ∀ j ∈ S, R i j) (prefer \ prev) (Finset.range N \ prev) [] sel) :
    OrderedSelection R prefer (Finset.range N \ prev) sel := by
  have hpa : prefer \ prev ⊆ Finset.range N \ prev :=
    Finset.sdiff_subset_sdiff hpref (Finset.Subset.refl _)
  have hv := h.valid hpref
  obtain ⟨p, q, hr, h1, h2, h3, h4, h5, h6, h7⟩ := h.ordered hpa
  refine ⟨p, q, hr, fun i hi => (Finset.mem_sdiff.1 (h1 i hi)).1, ?_, h3, h4, ?_, ?_, ?_⟩
  · intro i hi hip
    have := (hv.fresh i (by rw [hr]; simp [hi])).2
    exact h2 i hi (Finset.mem_sdiff.2 ⟨hip, this⟩)
  · intro i hi j hj hjp hjs
    exact h5 i hi j (Finset.mem_sdiff.2 ⟨hjp, (Finset.mem_sdiff.1 hj).2⟩) (by simp) hjs
  · intro i hi j hj hjs
    exact h6 i hi j hj (by simp) hjs
  · intro hq j hj hjp
    exact h7 hq j (Finset.mem_sdiff.2 ⟨hjp, (Finset.mem_sdiff.1 hj).2⟩) (by simp)

/-- C47: `select_greedy` of the best, worst and UCB learner on an empty set of indices raises
`ValueError`. -/
theorem C47_empty (ordL : Nat → Finset Nat → List Nat) (hordL : ∀ t, Enumerates (ordL t)) (mu : List K)
    (means var : List ℝ) (alpha : ℝ) (t : Nat) (prev : Finset Nat) :
    (bestLearner ordL mu).greedy t ∅ prev = .error .valueError ∧
      (worstLearner ordL mu).greedy t ∅ prev = .error .valueError ∧
      (ucbLearner ordL means var alpha).greedy t ∅ prev = .error .valueError := by
  have h : ordL t ∅ = [] := List.eq_nil_iff_forall_not_mem.2 fun i hi => by
    simpa using (hordL t ∅ i).1 hi
  refine ⟨?_, ?_, ?_⟩
  · simp only [bestLearner, h]; rfl
  · simp only [worstLearner, h]; rfl
  · simp only [ucbLearner, h]; rfl

/-- C47, best learner: the selection lists the candidates of highest value in non-increasing order,
preferred ones first, with or without `always_select_best`, for every prediction vector (ties
included). -/
theorem C47_best (ordL : Nat → Finset Nat → List Nat) (hordL : ∀ t, Enumerates (ordL t))
    (alwaysBest pairFirst : Bool) {ord : Finset Nat → List Nat} (hord : Enumerates ord) (mu : List K)
    (numAlts : Nat) (prefer prev : Finset Nat) (hpref : prefer ⊆ Finset.range mu.length)
    (hn : 0 < numAlts) (hle : numAlts ≤ (Finset.range mu.length \ prev).card) :
    ∃ sel, learnerSelect (bestLearner ordL mu) alwaysBest pairFirst none ord mu numAlts prefer prev
        = .ok sel ∧ ValidSelection mu.length numAlts prefer prev sel ∧
      OrderedSelection (ValueGE mu) prefer (Finset.range mu.length \ prev) sel := by
  have hg : ∀ t S p, S.Nonempty → S ⊆ Finset.range mu.length →
      ∃ i ∈ S, (bestLearner ordL mu).greedy t S p = .ok i ∧ ∀ j ∈ S, ValueGE mu i j := by
    intro t S p hS hsub
    obtain ⟨v, i, hv, hp, hb⟩ := gather_pickMax (hordL t) mu hS hsub
    exact ⟨i, hb.1, by simp only [bestLearner, hv, hp], hb.2⟩
  obtain ⟨sel, hsel, hlen, h1, h2⟩ := (learnerSelect_cases (P := fun S i => ∀ j ∈ S, ValueGE mu i j)
    (bestLearner ordL mu) alwaysBest pairFirst none hord mu numAlts prefer prev (.inl rfl) hpref hn hg).1 hle
  have hch : ChosenBy (fun S i => ∀ j ∈ S, ValueGE mu i j) (prefer \ prev)
      (Finset.range mu.length \ prev) [] sel := by
    by_cases hab : alwaysBest = true ∧ prev = ∅
    · obtain ⟨b, r, rfl, hb, hr⟩ := h1 hab
      exact ⟨hb.1, hb.2, hr⟩
    · exact h2 hab
  have hv := hch.valid hpref
  rw [hlen] at hv
  exact ⟨sel, hsel, hv, orderedSelection_of_chosen hpref hch⟩

/-- C47, worst learner: lowest values in non-decreasing order. With `always_select_best` the first point
is the best one instead, so that option is off (or something was selected before). -/
theorem C47_worst (ordL : Nat → Finset Nat → List Nat) (hordL : ∀ t, Enumerates (ordL t))
    (alwaysBest pairFirst : Bool) {ord : Finset Nat → List Nat} (hord : Enumerates ord) (mu : List K)
    (numAlts : Nat) (prefer prev : Finset Nat) (hpref : prefer ⊆ Finset.range mu.length)
    (hab : alwaysBest = false ∨ prev ≠ ∅)
    (hn : 0 < numAlts) (hle : numAlts ≤ (Finset.range mu.length \ prev).card) :
    ∃ sel, learnerSelect (worstLearner ordL mu) alwaysBest pairFirst none ord mu numAlts prefer prev
        = .ok sel ∧ ValidSelection mu.length numAlts prefer prev sel ∧
      OrderedSelection (ValueLE mu) prefer (Finset.range mu.length \ prev) sel := by
  have hg : ∀ t S p, S.Nonempty → S ⊆ Finset.range mu.length →
      ∃ i ∈ S, (worstLearner ordL mu).greedy t S p = .ok i ∧ ∀ j ∈ S, ValueLE mu i j := by
    intro t S p hS hsub
    obtain ⟨v, i, hv, hp, hi, hb⟩ := gather_pickMin (hordL t) mu hS hsub
    exact ⟨i, hi, by simp only [worstLearner, hv, hp], hb⟩
  obtain ⟨sel, hsel, hlen, h1, h2⟩ := (learnerSelect_cases (P := fun S i => ∀ j ∈ S, ValueLE mu i j)
    (worstLearner ordL mu) alwaysBest pairFirst none hord mu numAlts prefer prev (.inl rfl) hpref hn hg).1 hle
  have hch := h2 (by rintro ⟨h3, h4⟩; rcases hab with h | h <;> simp_all)
  have hv := hch.valid hpref
  rw [hlen] at hv
  exact ⟨sel, hsel, hv, orderedSelection_of_chosen hpref hch⟩

/-- C47, UCB learner with a GP model: highest `mean + alpha * sqrt(variance)` in non-increasing
order. -/
theorem C47_ucb (ordL : Nat → Finset Nat → List Nat) (hordL : ∀ t, Enumerates (ordL t))
    (alwaysBest pairFirst : Bool) {ord : Finset Nat → List Nat} (hord : Enumerates ord)
    (mu var : List ℝ) (hvar : var.length = mu.length) (alpha : ℝ)
    (numAlts : Nat) (prefer prev : Finset Nat) (hpref : prefer ⊆ Finset.range mu.length)
    (hab : alwaysBest = false ∨ prev ≠ ∅)
    (hn : 0 < numAlts) (hle : numAlts ≤ (Finset.range mu.length \ prev).card) :
    ∃ sel, learnerSelect (ucbLearner ordL mu var alpha) alwaysBest pairFirst none ord mu numAlts prefer prev
        = .ok sel ∧ ValidSelection mu.length numAlts prefer prev sel ∧
      OrderedSelection (fun i j => ∀ m v m' v', mu[i]? = some m → var[i]? = some v → mu[j]? = some m' →
          var[j]? = some v' → m' + alpha * Real.sqrt v' ≤ m + alpha * Real.sqrt v)
        prefer (Finset.range mu.length \ prev) sel := by
  set R : Nat → Nat → Prop := fun i j => ∀ m v m' v', mu[i]? = some m → var[i]? = some v →
    mu[j]? = some m' → var[j]? = some v' → m' + alpha * Real.sqrt v' ≤ m + alpha * Real.sqrt v with hR
  have hg : ∀ t S p, S.Nonempty → S ⊆ Finset.range mu.length →
      ∃ i ∈ S, (ucbLearner ordL mu var alpha).greedy t S p = .ok i ∧ ∀ j ∈ S, R i j := by
    intro t S p hS hsub
    have hb : ∀ i ∈ ordL t S, i < mu.length := fun i hi => by simpa using hsub ((hordL t S i).1 hi)
    obtain ⟨ms, hms, hml, hmk⟩ := gather_ok mu (ordL t S) hb
    obtain ⟨vs, hvs, hvl, hvk⟩ := gather_ok var (ordL t S) (by rw [hvar]; exact hb)
    set sc := List.zipWith (fun m v => m + alpha * Real.sqrt v) ms vs with hsc
    have hscl : sc.length = (ordL t S).length := by rw [hsc, List.length_zipWith, hml, hvl, min_self]
    obtain ⟨k, i, hp, hki, x, hx, hmax⟩ := pickMax_ok (ordL t S) sc hscl (ord_ne_nil (hordL t) hS)
    refine ⟨i, (hordL t S i).1 (List.mem_of_getElem? hki), by simp only [ucbLearner, hms, hvs, ← hsc, hp], ?_⟩
    intro j hj m v m' v' hm hv hm' hv'
    obtain ⟨kj, hkj⟩ := List.mem_iff_getElem?.1 ((hordL t S j).2 hj)
    have e1 : sc[k]? = some (m + alpha * Real.sqrt v) := by
      rw [hsc, List.getElem?_zipWith, hmk k i hki, hvk k i hki, hm, hv]
    have e2 : sc[kj]? = some (m' + alpha * Real.sqrt v') := by
      rw [hsc, List.getElem?_zipWith, hmk kj j hkj, hvk kj j hkj, hm', hv']
    rw [hx] at e1
    rw [← Option.some.inj e1]
    exact hmax _ (List.mem_of_getElem? e2)
  obtain ⟨sel, hsel, hlen, h1, h2⟩ := (learnerSelect_cases (P := fun S i => ∀ j ∈ S, R i j)
    (ucbLearner ordL mu var alpha) alwaysBest pairFirst none hord mu numAlts prefer prev (.inl rfl) hpref
    hn hg).1 hle
  have hch := h2 (by rintro ⟨h3, h4⟩; rcases hab with h | h <;> simp_all)
  have hv := hch.valid hpref
  rw [hlen] at hv
  exact ⟨sel, hsel, hv, orderedSelection_of_chosen hpref hch⟩

/-- Instance of C47: ties, preferred points and a previous selection. -/
example : learnerSelect (bestLearner (fun _ => sortedList) [3, 9, 9, 1, 7]) false true none
    sortedList ([3, 9, 9, 1, 7] : List Int) 4 {0, 3} {1} = .ok [0, 3, 2, 4] := by
  decide +kernel

end C47

section C48
variable {α : Type*} [LinearOrder α] {d : Nat}

/-- C48, interpretation of the argument: total case analysis. -/
theorem C48_interpretation (dp : Bool) (cands : List (Fin d → α)) :
    (∀ s, getPreferred dp cands (.pts s) = .ok s) ∧
    (dp = false → getPreferred dp cands .none = .ok (Finset.range cands.length)) ∧
    (dp = true → ∃ s, getPreferred dp cands .none = .ok s ∧ ∀ i, i ∈ s ↔ OnFront cands i) ∧
    (∃ s, getPreferred dp cands .pareto = .ok s ∧ ∀ i, i ∈ s ↔ OnFront cands i) ∧
    getPreferred dp cands (.count 0) = .ok (Finset.range cands.length) ∧
    (∀ n : Nat, 0 < n → ∃ s, getPreferred dp cands (.count n) = .ok s ∧ ∀ i, i ∈ s ↔ i < n) ∧
    (∀ n : Int, n < 0 → getPreferred dp cands (.count n) = .error .valueError) ∧
    getPreferred dp cands .other = .error .valueError := by
  have hfront : ∀ i, i ∈ (getPareto cands).toFinset ↔ OnFront cands i := by
    intro i
    rw [List.mem_toFinset]
    exact C05_get_pareto_exact cands i
  refine ⟨fun s => rfl, ?_, ?_, ⟨_, rfl, hfront⟩, rfl, ?_, ?_, rfl⟩
  · rintro rfl; rfl
  · rintro rfl; exact ⟨_, rfl, hfront⟩
  · intro n hn
    refine ⟨Finset.range n, ?_, by simp⟩
    simp only [getPreferred, Int.toNat_natCast]
    rw [if_neg (by omega), if_neg (by omega)]
  · intro n hn
    simp only [getPreferred]
    rw [if_neg (by omega), if_pos hn]

/-- C48, valid indices: every interpretation except explicit collections and counts larger than the
number of candidates gives valid candidate indices. -/
theorem C48_valid_indices_partial (dp : Bool) (cands : List (Fin d → α)) (arg : PreferArg)
    (hpts : ∀ s, arg = .pts s → s ⊆ Finset.range cands.length)
    (hcount : ∀ n, arg = .count n → n ≤ cands.length) (s : Finset Nat)
    (h : getPreferred dp cands arg = .ok s) : s ⊆ Finset.range cands.length := by
  have hfront : (getPareto cands).toFinset ⊆ Finset.range cands.length := by
    intro i hi
    rw [List.mem_toFinset] at hi
    obtain ⟨v, hv, _⟩ := (C05_get_pareto_exact cands i).1 hi
    simpa using (List.getElem?_eq_some_iff.1 hv).1
  cases arg with
  | none =>
    cases dp
    · simp only [getPreferred, Bool.false_eq_true, if_false, Except.ok.injEq] at h
      exact h ▸ Finset.Subset.refl _
    · simp only [getPreferred, if_true, Except.ok.injEq] at h
      exact h ▸ hfront
  | pts t =>
    simp only [getPreferred, Except.ok.injEq] at h
    exact h ▸ hpts t rfl
  | pareto =>
    simp only [getPreferred, Except.ok.injEq] at h
    exact h ▸ hfront
  | count n =>
    have hn := hcount n rfl
    simp only [getPreferred] at h
    split at h
    · simp only [Except.ok.injEq] at h
      exact h ▸ Finset.Subset.refl _
    · split at h
      · simp at h
      · simp only [Except.ok.injEq] at h
        rw [← h]
        intro i
        simp only [Finset.mem_range]
        omega
  | other => simp [getPreferred] at h

/-- C48, valid indices, exactly: a result consists of candidate indices if and only if an explicit collection does and a
count does not exceed the number of candidates. -/
theorem C48_valid_exact (dp : Bool) (cands : List (Fin d → α)) (arg : PreferArg) (s : Finset Nat)
    (h : getPreferred dp cands arg = .ok s) : s ⊆ Finset.range cands.length ↔
      (∀ t, arg = .pts t → ∀ i ∈ t, i < cands.length) ∧ (∀ n, arg = .count n → n ≤ cands.length) := by
  constructor
  · intro hs
    refine ⟨?_, ?_⟩
    · rintro t rfl i hi
      simp only [getPreferred, Except.ok.injEq] at h
      exact Finset.mem_range.1 (hs (h ▸ hi))
    · rintro n rfl
      by_contra hc
      obtain ⟨-, -, -, -, -, hcount, -⟩ := C48_interpretation dp cands
      obtain ⟨t, ht, hmem⟩ := hcount n.toNat (by omega)
      rw [show ((n.toNat : Nat) : Int) = n by omega, h] at ht
      cases ht
      have := Finset.mem_range.1 (hs ((hmem cands.length).2 (by omega)))
      omega
  · rintro ⟨h1, h2⟩
    exact C48_valid_indices_partial dp cands arg (fun t ht i hi => Finset.mem_range.2 (h1 t ht i hi)) h2 s h

/-- C48 as stated is false: preferring the first 5 of 2 candidates yields the indices 0..4. -/
theorem C48_large_count_counterexample (dp : Bool) (x y : Fin d → α) :
    getPreferred dp [x, y] (.count 5) = .ok (Finset.range 5) ∧
      ¬ Finset.range 5 ⊆ Finset.range ([x, y] : List (Fin d → α)).length := by
  refine ⟨rfl, fun h => ?_⟩
  have := h (show 4 ∈ Finset.range 5 by simp)
  simp at this

/-- C48, `select_best`: the best unselected preferred candidate, the best unselected candidate when no
preferred one is left, an exception exactly when every candidate has been selected. -/
theorem C48_select_best {K : Type*} [LinearOrder K] {ord : Finset Nat → List Nat}
    (hord : Enumerates ord) (mu : List K) (prefer prev : Finset Nat)
    (hpref : prefer ⊆ Finset.range mu.length) :
    (prefer \ prev ≠ ∅ → ∃ i, selectBest ord mu prefer prev = .ok i ∧ IsBestIn mu (prefer \ prev) i) ∧
    (prefer \ prev = ∅ → Finset.range mu.length \ prev ≠ ∅ →
      ∃ i, selectBest ord mu prefer prev = .ok i ∧ IsBestIn mu (Finset.range mu.length \ prev) i) ∧
    (Finset.range mu.length \ prev = ∅ → selectBest ord mu prefer prev = .error .exception) := by
  refine ⟨fun h => ?_, fun h h' => ?_, fun h => ?_⟩
  · have hne : Finset.range mu.length \ prev ≠ ∅ := by
      intro h0
      apply h
      refine Finset.subset_empty.1 (h0 ▸ Finset.sdiff_subset_sdiff hpref (Finset.Subset.refl _))
    obtain ⟨i, hi, hb⟩ := selectBest_ok hord mu prefer prev hpref hne
    rw [if_neg h] at hb
    exact ⟨i, hi, hb⟩
  · obtain ⟨i, hi, hb⟩ := selectBest_ok hord mu prefer prev hpref h'
    rw [if_pos h] at hb
    exact ⟨i, hi, hb⟩
  · have hp : prefer \ prev = ∅ :=
      Finset.subset_empty.1 (h ▸ Finset.sdiff_subset_sdiff hpref (Finset.Subset.refl _))
    simp [selectBest, hp, h]

/-- Instance of C48. -/
example : selectBest sortedList ([4, 8, 6] : List Int) {0, 2} {2} = .ok 0 := by
  decide +kernel

end C48

end Lop.Props
