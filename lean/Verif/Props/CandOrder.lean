import Verif.Proofs.CandOrderRet
import Verif.Proofs.CandOrderValues
import Verif.Props.Pareto
import Verif.Props.Select
import Verif.Props.SelectRet
import Verif.Props.InfoGain
import Verif.Props.ExpAlign
import Verif.Props.GVUcb

/-! # C121: which candidates are selected does not depend on how they are numbered -/

namespace Lop.Props

open Lop.Spec

variable {π : Equiv.Perm Nat} {K : Type} [LinearOrder K]

/-- C121: a learner that does the same about the candidates in a new order selects the same candidates in the same order,
with or without `always_select_best`, for every preferred and excluded set, also when it raises. -/
theorem C121_select {L L' : Learner} (hp : L.pair = none) (hp' : L'.pair = none) {mu mu' : List K}
    (hmu : Renumbered π mu mu') (hL : SameGreedy π mu.length L L') (alwaysBest pairFirst : Bool)
    (hb : alwaysBest = true → mu.Nodup) (maxAlts : Option Nat) {ord ord' : Finset Nat → List Nat} (hord : Enumerates ord)
    (hord' : Enumerates ord') (numAlts : Nat) {prefer prev : Finset Nat} (hpref : prefer ⊆ Finset.range mu.length)
    (hprev : prev ⊆ Finset.range mu.length) :
    learnerSelect L' alwaysBest pairFirst maxAlts ord' mu' numAlts (renumSet π prefer) (renumSet π prev) =
      (learnerSelect L alwaysBest pairFirst maxAlts ord mu numAlts prefer prev).map (List.map π) := by
  have hlen := renumbered_length hmu
  have hπ : ∀ i, π i < mu.length ↔ i < mu.length := fun i => by rw [← renumbered_lt hmu i, hlen]
  simp only [learnerSelect, startSelection, hlen, renumSet_empty]
  by_cases h : alwaysBest = true ∧ prev = ∅
  · rw [if_pos h, if_pos h, selectBest_renum hord hord' hmu (hb h.1) hpref]
    cases hs : selectBest ord mu prefer prev with
    | error e => rfl
    | ok b =>
      simp only [Except.map]
      have hbN : b < mu.length := by
        have hne : Finset.range mu.length \ prev ≠ ∅ := by
          intro h1
          have h2 : prefer \ prev = ∅ := by
            rw [Finset.sdiff_eq_empty_iff_subset] at h1 ⊢
            exact hpref.trans h1
          simp [selectBest, h1, h2] at hs
        obtain ⟨i, hi, hi2⟩ := selectBest_ok hord mu prefer prev hpref hne
        rw [hs] at hi
        cases hi
        have := hi2.1
        split at this
        · exact Finset.mem_range.1 (Finset.mem_sdiff.1 this).1
        · exact Finset.mem_range.1 (hpref (Finset.mem_sdiff.1 this).1)
      have := selectLoop_renum hπ hp hp' hL pairFirst (effAlts maxAlts numAlts) (prev := insert b prev)
        (by
          intro i hi
          rcases Finset.mem_insert.1 hi with rfl | h1
          · exact Finset.mem_range.2 hbN
          · exact hprev h1)
        (effAlts maxAlts numAlts) 0 [b] (prefer \ insert b prev) none (by simpa using hbN) (Finset.sdiff_subset.trans hpref)
        (by
          rw [Finset.disjoint_left]
          intro j hj
          simp only [Finset.mem_sdiff, Finset.mem_insert, not_or] at hj
          simp [hj.2.1, hj.2.2]) (by simp)
      rw [renumSet_insert, renumSet_sdiff]
      exact this
  · rw [if_neg h, if_neg h]
    simp only [renumSet_sdiff]
    exact selectLoop_renum hπ hp hp' hL pairFirst _ hprev _ 0 [] (prefer \ prev) none (by simp)
      (Finset.sdiff_subset.trans hpref) (by simpa using Finset.sdiff_disjoint) (by simp)

/-- C121: the same with `return_not_selected=True`, skipped candidates included, after any number of passes. -/
theorem C121_select_ret {L L' : Learner} (hp : L.pair = none) (hp' : L'.pair = none) {mu mu' : List K}
    (hmu : Renumbered π mu mu') (hL : SameGreedy π mu.length L L')
    (hmem : ∀ t idx prev i, L.greedy t idx prev = .ok i → i ∈ idx) (alwaysBest pairFirst : Bool)
    (hb : alwaysBest = true → mu.Nodup) (maxAlts : Option Nat) {ord ord' : Finset Nat → List Nat} (hord : Enumerates ord)
    (hord' : Enumerates ord') (numAlts : Nat) {prefer prev : Finset Nat} (hpref : prefer ⊆ Finset.range mu.length)
    (hprev : prev ⊆ Finset.range mu.length) (fuel : Nat) :
    learnerSelectRet L' alwaysBest pairFirst maxAlts ord' mu' numAlts (renumSet π prefer) (renumSet π prev) fuel =
      (learnerSelectRet L alwaysBest pairFirst maxAlts ord mu numAlts prefer prev fuel).map
        fun r => r.map fun q => (q.1.map π, q.2.map π) := by
  have hlen := renumbered_length hmu
  have hπ : ∀ i, π i < mu.length ↔ i < mu.length := fun i => by rw [← renumbered_lt hmu i, hlen]
  simp only [learnerSelectRet, startSelection, hlen, renumSet_empty]
  by_cases h : alwaysBest = true ∧ prev = ∅
  · rw [if_pos h, if_pos h, selectBest_renum hord hord' hmu (hb h.1) hpref]
    cases hs : selectBest ord mu prefer prev with
    | error e => rfl
    | ok b =>
      simp only [Except.map]
      have hbN : b < mu.length := by
        have hne : Finset.range mu.length \ prev ≠ ∅ := by
          intro h1
          have h2 : prefer \ prev = ∅ := by
            rw [Finset.sdiff_eq_empty_iff_subset] at h1 ⊢
            exact hpref.trans h1
          simp [selectBest, h1, h2] at hs
        obtain ⟨i, hi, hi2⟩ := selectBest_ok hord mu prefer prev hpref hne
        rw [hs] at hi
        cases hi
        have := hi2.1
        split at this
        · exact Finset.mem_range.1 (Finset.mem_sdiff.1 this).1
        · exact Finset.mem_range.1 (hpref (Finset.mem_sdiff.1 this).1)
      have := retLoop_renum hp hp' hL hmem pairFirst (effAlts maxAlts numAlts) (prev := insert b prev)
        (by
          intro i hi
          rcases Finset.mem_insert.1 hi with rfl | h1
          · exact Finset.mem_range.2 hbN
          · exact hprev h1)
        fuel 0 ⟨[b], [], prefer \ insert b prev, (Finset.range mu.length \ insert b prev) \ [b].toFinset⟩
        ⟨by simpa using hbN, by simp, Finset.sdiff_subset.trans Finset.sdiff_subset, by
          rw [Finset.disjoint_left]
          intro j hj
          simp only [Finset.mem_sdiff, Finset.mem_insert, not_or] at hj
          simp [hj.1.2.1, hj.1.2.2]⟩
      rw [renumSet_insert, renumSet_sdiff]
      have e : (Finset.range mu.length \ renumSet π (insert b prev)) \ [π b].toFinset =
          renumSet π ((Finset.range mu.length \ insert b prev) \ [b].toFinset) := by
        nth_rewrite 1 [renumSet_range hπ]
        rw [renumSet_sdiff, ← renumSet_sdiff _ [b].toFinset, ← renumSet_list]
        rfl
      rw [e]
      exact this
  · rw [if_neg h, if_neg h]
    simp only [renumSet_sdiff]
    have := retLoop_renum hp hp' hL hmem pairFirst (effAlts maxAlts numAlts) hprev fuel 0
      ⟨[], [], prefer \ prev, (Finset.range mu.length \ prev) \ ([] : List Nat).toFinset⟩
        ⟨by simp, by simp, Finset.sdiff_subset.trans Finset.sdiff_subset, by simpa using Finset.sdiff_disjoint⟩
    have e : (Finset.range mu.length \ renumSet π prev) \ ([] : List Nat).toFinset =
        renumSet π ((Finset.range mu.length \ prev) \ ([] : List Nat).toFinset) := by
      nth_rewrite 1 [renumSet_range hπ]
      rw [renumSet_sdiff, List.toFinset_nil, Finset.sdiff_empty, Finset.sdiff_empty]
    rw [e]
    exact this

/-- C121, preferred set: the Pareto-optimal candidates, and the default, do not depend on the numbering. -/
theorem C121_preferred {α : Type*} [LinearOrder α] {d : Nat} {cands cands' : List (Fin d → α)}
    (hc : Renumbered π cands cands') (hn : cands.Nodup) (dp : Bool) (a : PreferArg) (ha : a = .none ∨ a = .pareto) :
    getPreferred dp cands' a = (getPreferred dp cands a).map (renumSet π) := by
  have hlen := renumbered_length hc
  have hr : Finset.range cands'.length = renumSet π (Finset.range cands.length) :=
    renumSet_ext fun i => by simp [renumbered_lt hc]
  have hn' : cands'.Nodup := by
    rw [List.nodup_iff_getElem?_ne_getElem?]
    intro i j hij hj h
    obtain ⟨a, rfl⟩ := π.surjective i
    obtain ⟨b, rfl⟩ := π.surjective j
    rw [hc, hc] at h
    have hb := (renumbered_lt hc b).1 hj
    have ha := (renumbered_lt hc a).1 (hij.trans hj)
    rw [List.getElem?_eq_getElem ha, List.getElem?_eq_getElem hb, Option.some.injEq, hn.getElem_inj_iff] at h
    exact absurd (congrArg π h) hij.ne
  have hfirst : ∀ {l : List (Fin d → α)}, l.Nodup → ∀ (i : Nat) v, l[i]? = some v → ∀ j < i, l[j]? ≠ some v := by
    intro l hl i v hi j hj h
    exact (List.nodup_iff_getElem?_ne_getElem?.1 hl) j i hj (List.getElem?_eq_some_iff.1 hi).1 (h.trans hi.symm)
  have hmem : ∀ w, w ∈ cands' ↔ w ∈ cands := by
    intro w
    rw [List.mem_iff_getElem?, List.mem_iff_getElem?]
    constructor
    · rintro ⟨k, hk⟩
      obtain ⟨i, rfl⟩ := π.surjective k
      exact ⟨i, (hc i).symm.trans hk⟩
    · rintro ⟨i, hi⟩
      exact ⟨π i, (hc i).trans hi⟩
  have hp : (getPareto cands').toFinset = renumSet π (getPareto cands).toFinset := renumSet_ext fun i => by
    rw [List.mem_toFinset, List.mem_toFinset, C05_get_pareto_exact, C05_get_pareto_exact]
    simp only [OnFront, hc i, hmem]
    refine exists_congr fun v => and_congr_right fun hv => and_congr_right fun _ => ?_
    exact ⟨fun _ => hfirst hn i v hv, fun _ => hfirst hn' (π i) v ((hc i).trans hv)⟩
  rcases ha with rfl | rfl
  · cases dp
    · simp only [getPreferred, hr]
      rfl
    · simp only [getPreferred, hp]
      rfl
  · simp only [getPreferred, hp]
    rfl

/-- C121, preferred set: a number of preferred candidates names the first ones. -/
theorem C121_count_false : ∃ (π : Equiv.Perm Nat) (cands cands' : List (Fin 1 → ℤ)), Renumbered π cands cands' ∧
    cands.Nodup ∧ getPreferred false cands' (.count 1) ≠ (getPreferred false cands (.count 1)).map (renumSet π) := by
  refine ⟨Equiv.swap 0 1, [fun _ => 0, fun _ => 1], [fun _ => 1, fun _ => 0], ?_, ?_, ?_⟩
  · intro i
    match i with
    | 0 => simp
    | 1 => simp
    | i + 2 => rw [Equiv.swap_apply_of_ne_of_ne (by omega) (by omega)]; rfl
  · simp [funext_iff]
  · decide +kernel

/-- C121, ties: of equally good candidates the one that comes first in Python's order of the set is selected. -/
theorem C121_tie_false : ∃ (π : Equiv.Perm Nat) (mu : List ℤ), Renumbered π mu mu ∧
    learnerSelect (bestLearner (fun _ => sortedList) mu) false true none sortedList mu 1 (renumSet π {0, 1}) ∅ ≠
      (learnerSelect (bestLearner (fun _ => sortedList) mu) false true none sortedList mu 1 {0, 1} ∅).map (List.map π) := by
  refine ⟨Equiv.swap 0 1, [1, 1], ?_, by decide +kernel⟩
  intro i
  match i with
  | 0 => simp
  | 1 => simp
  | i + 2 => rw [Equiv.swap_apply_of_ne_of_ne (by omega) (by omega)]

theorem best_same {mu mu' : List K} (hmu : Renumbered π mu mu') (hn : mu.Nodup) {ordL ordL' : Nat → Finset Nat → List Nat}
    (ho : ∀ t, Enumerates (ordL t)) (ho' : ∀ t, Enumerates (ordL' t)) :
    SameGreedy π mu.length (bestLearner ordL mu) (bestLearner ordL' mu') := by
  intro t S p hS hp hd
  rcases S.eq_empty_or_nonempty with rfl | hne
  · rw [renumSet_empty.2 rfl, (C47_empty ordL ho mu [] [] 0 t p).1, (C47_empty ordL' ho' mu' [] [] 0 t _).1]
    rfl
  · obtain ⟨v, i, hv, hpk, hb⟩ := gather_pickMax (ho t) mu hne hS
    obtain ⟨v', i', hv', hpk', hb'⟩ := gather_pickMax (ho' t) mu' (renumSet_nonempty.2 hne)
      (renumSet_sub (fun i => renumbered_lt hmu i) hS)
    refine choose_renum (R := ValueGE mu) (R' := ValueGE mu') ?_ ?_ ⟨i, hb.1, by simp only [bestLearner, hv, hpk], hb.2⟩
      ⟨i', hb'.1, by simp only [bestLearner, hv', hpk'], hb'.2⟩
    · intro a _ b _ h x y hx hy
      exact h x y ((hmu a).trans hx) ((hmu b).trans hy)
    · intro a ha b hb
      exact valueGE_anti hn (Finset.mem_range.1 (hS ha)) (Finset.mem_range.1 (hS hb))

/-- C121: `BestLearner`, for predictions without ties. -/
theorem C121_best {mu mu' : List K} (hmu : Renumbered π mu mu') (hn : mu.Nodup) {ordL ordL' : Nat → Finset Nat → List Nat}
    (ho : ∀ t, Enumerates (ordL t)) (ho' : ∀ t, Enumerates (ordL' t)) (alwaysBest pairFirst : Bool)
    {ord ord' : Finset Nat → List Nat} (hord : Enumerates ord) (hord' : Enumerates ord') (numAlts : Nat)
    {prefer prev : Finset Nat} (hpref : prefer ⊆ Finset.range mu.length) (hprev : prev ⊆ Finset.range mu.length) :
    learnerSelect (bestLearner ordL' mu') alwaysBest pairFirst none ord' mu' numAlts (renumSet π prefer) (renumSet π prev) =
      (learnerSelect (bestLearner ordL mu) alwaysBest pairFirst none ord mu numAlts prefer prev).map (List.map π) :=
  C121_select rfl rfl hmu (best_same hmu hn ho ho') alwaysBest pairFirst (fun _ => hn) none hord hord' numAlts hpref hprev

/-- C121: `WorstLearner`, for predictions without ties. -/
theorem C121_worst {mu mu' : List K} (hmu : Renumbered π mu mu') (hn : mu.Nodup) {ordL ordL' : Nat → Finset Nat → List Nat}
    (ho : ∀ t, Enumerates (ordL t)) (ho' : ∀ t, Enumerates (ordL' t)) (alwaysBest pairFirst : Bool)
    {ord ord' : Finset Nat → List Nat} (hord : Enumerates ord) (hord' : Enumerates ord') (numAlts : Nat)
    {prefer prev : Finset Nat} (hpref : prefer ⊆ Finset.range mu.length) (hprev : prev ⊆ Finset.range mu.length) :
    learnerSelect (worstLearner ordL' mu') alwaysBest pairFirst none ord' mu' numAlts (renumSet π prefer) (renumSet π prev) =
      (learnerSelect (worstLearner ordL mu) alwaysBest pairFirst none ord mu numAlts prefer prev).map (List.map π) := by
  refine C121_select rfl rfl hmu ?_ alwaysBest pairFirst (fun _ => hn) none hord hord' numAlts hpref hprev
  intro t S p hS hp hd
  rcases S.eq_empty_or_nonempty with rfl | hne
  · rw [renumSet_empty.2 rfl, (C47_empty ordL ho mu [] [] 0 t p).2.1, (C47_empty ordL' ho' mu' [] [] 0 t _).2.1]
    rfl
  · obtain ⟨v, i, hv, hpk, hi, hb⟩ := gather_pickMin (ho t) mu hne hS
    obtain ⟨v', i', hv', hpk', hi', hb'⟩ := gather_pickMin (ho' t) mu' (renumSet_nonempty.2 hne)
      (renumSet_sub (fun i => renumbered_lt hmu i) hS)
    refine choose_renum (R := ValueLE mu) (R' := ValueLE mu') ?_ ?_ ⟨i, hi, by simp only [worstLearner, hv, hpk], hb⟩
      ⟨i', hi', by simp only [worstLearner, hv', hpk'], hb'⟩
    · intro a _ b _ h x y hx hy
      exact h x y ((hmu a).trans hx) ((hmu b).trans hy)
    · intro a ha b hb h1 h2
      exact valueGE_anti hn (Finset.mem_range.1 (hS ha)) (Finset.mem_range.1 (hS hb))
        (fun x y hx hy => h2 y x hy hx) fun x y hx hy => h1 y x hy hx

/-- The bound of `UCBLearner`. -/
private noncomputable def ucbOf (mu var : List ℝ) (alpha : ℝ) (i : Nat) : ℝ := mu[i]?.getD 0 + alpha * Real.sqrt (var[i]?.getD 0)

private lemma ucb_picks {ordL : Nat → Finset Nat → List Nat} (ho : ∀ t, Enumerates (ordL t)) {mu var : List ℝ}
    (hvar : var.length = mu.length) (alpha : ℝ) (t : Nat) {S : Finset Nat} (p : Finset Nat) (hS : S.Nonempty)
    (hsub : S ⊆ Finset.range mu.length) :
    ∃ i ∈ S, (ucbLearner ordL mu var alpha).greedy t S p = .ok i ∧ ∀ j ∈ S, ucbOf mu var alpha j ≤ ucbOf mu var alpha i := by
  have hb : ∀ i ∈ ordL t S, i < mu.length := fun i hi => by simpa using hsub ((ho t S i).1 hi)
  obtain ⟨ms, hms, hml, hmk⟩ := gather_ok mu (ordL t S) hb
  obtain ⟨vs, hvs, hvl, hvk⟩ := gather_ok var (ordL t S) (by rw [hvar]; exact hb)
  set sc := List.zipWith (fun m v => m + alpha * Real.sqrt v) ms vs with hsc
  have hscl : sc.length = (ordL t S).length := by rw [hsc, List.length_zipWith, hml, hvl, min_self]
  have hval : ∀ (k i : Nat), (ordL t S)[k]? = some i → sc[k]? = some (ucbOf mu var alpha i) := by
    intro k i hk
    have hi := hb i (List.mem_of_getElem? hk)
    rw [hsc, List.getElem?_zipWith, hmk k i hk, hvk k i hk, ucbOf, List.getElem?_eq_getElem hi,
      List.getElem?_eq_getElem (hvar ▸ hi)]
    rfl
  obtain ⟨k, i, hp, hki, x, hx, hmax⟩ := pickMax_ok (ordL t S) sc hscl (ord_ne_nil (ho t) hS)
  refine ⟨i, (ho t S i).1 (List.mem_of_getElem? hki), by simp only [ucbLearner, hms, hvs, ← hsc, hp], ?_⟩
  intro j hj
  obtain ⟨kj, hkj⟩ := List.mem_iff_getElem?.1 ((ho t S j).2 hj)
  rw [hval k i hki] at hx
  rw [Option.some.inj hx]
  exact hmax _ (List.mem_of_getElem? (hval kj j hkj))

/-- C121: `UCBLearner`, for different bounds. -/
theorem C121_ucb {mu mu' var var' : List ℝ} (hmu : Renumbered π mu mu') (hvar : Renumbered π var var')
    (hlen : var.length = mu.length) (alpha : ℝ)
    (hn : ∀ i < mu.length, ∀ j < mu.length, mu[i]?.getD 0 + alpha * Real.sqrt (var[i]?.getD 0) =
      mu[j]?.getD 0 + alpha * Real.sqrt (var[j]?.getD 0) → i = j)
    {ordL ordL' : Nat → Finset Nat → List Nat} (ho : ∀ t, Enumerates (ordL t)) (ho' : ∀ t, Enumerates (ordL' t))
    (alwaysBest pairFirst : Bool) (hb : alwaysBest = true → mu.Nodup) {ord ord' : Finset Nat → List Nat}
    (hord : Enumerates ord) (hord' : Enumerates ord') (numAlts : Nat) {prefer prev : Finset Nat}
    (hpref : prefer ⊆ Finset.range mu.length) (hprev : prev ⊆ Finset.range mu.length) :
    learnerSelect (ucbLearner ordL' mu' var' alpha) alwaysBest pairFirst none ord' mu' numAlts (renumSet π prefer)
        (renumSet π prev) =
      (learnerSelect (ucbLearner ordL mu var alpha) alwaysBest pairFirst none ord mu numAlts prefer prev).map (List.map π) := by
  refine C121_select rfl rfl hmu ?_ alwaysBest pairFirst hb none hord hord' numAlts hpref hprev
  have hlen' : var'.length = mu'.length := by rw [renumbered_length hmu, renumbered_length hvar, hlen]
  intro t S p hS hp hd
  rcases S.eq_empty_or_nonempty with rfl | hne
  · rw [renumSet_empty.2 rfl, (C47_empty ordL ho mu mu var alpha t p).2.2, (C47_empty ordL' ho' mu' mu' var' alpha t _).2.2]
    rfl
  · refine choose_renum (R := fun i j => ucbOf mu var alpha j ≤ ucbOf mu var alpha i)
      (R' := fun i j => ucbOf mu' var' alpha j ≤ ucbOf mu' var' alpha i) ?_ ?_ (ucb_picks ho hlen alpha t p hne hS)
      (ucb_picks ho' hlen' alpha t _ (renumSet_nonempty.2 hne) (renumSet_sub (fun i => renumbered_lt hmu i) hS))
    · intro a _ b _ h
      simpa only [ucbOf, hmu a, hmu b, hvar a, hvar b] using h
    · intro a ha b hb h1 h2
      exact hn a (Finset.mem_range.1 (hS ha)) b (Finset.mem_range.1 (hS hb)) (le_antisymm h2 h1)

private lemma gv_picks {d : Nat} {ordL : Nat → Finset Nat → List Nat} (ho : ∀ t, Enumerates (ordL t)) {m : GVModel d}
    {mu : List ℝ} {c : Nat → Nat → ℝ} (hm : m.cov mu.length = .ok c) (h : IsCov mu.length c) (alpha : ℝ) (t : Nat)
    {S p : Finset Nat} (hS : S.Nonempty) (hsub : S ⊆ Finset.range mu.length) (hp : p ⊆ Finset.range mu.length) :
    ∃ i ∈ S, (gvLearner ordL m mu alpha).greedy t S p = .ok i ∧ ∀ j ∈ S,
      (gvValue c (fun i => mu[i]?.getD 0) alpha (ordL t p) j).getD 0 ≤
        (gvValue c (fun i => mu[i]?.getD 0) alpha (ordL t p) i).getD 0 := by
  have hp2 : ∀ i ∈ ordL t p, i < mu.length := fun i hi => by simpa using hp ((ho t p i).1 hi)
  obtain ⟨b, i, s, hbi, hr, hs, hmax⟩ := C77_greedy m hm h (fun i => mu[i]?.getD 0) alpha (ind := ordL t S) (prev := ordL t p)
    (ord_ne_nil (ho t) hS) (fun i hi => by simpa using hsub ((ho t S i).1 hi)) hp2
  have hiS := (ho t S i).1 (List.mem_of_getElem? hbi)
  refine ⟨i, hiS, by simp only [gvLearner, hr]; rfl, fun j hj => ?_⟩
  obtain ⟨k, hk⟩ := List.mem_iff_getElem?.1 ((ho t S j).2 hj)
  obtain ⟨s1, hs1, e1⟩ := gvValue_eq h (fun i => mu[i]?.getD 0) alpha hp2 (Finset.mem_range.1 (hsub hiS))
  obtain ⟨s2, hs2, e2⟩ := gvValue_eq h (fun i => mu[i]?.getD 0) alpha hp2 (Finset.mem_range.1 (hsub hj))
  haveI : Nonempty (Fin (ordL t p ++ [i]).length) := ⟨⟨0, by simp⟩⟩
  rw [e1, e2, isSGV_unique hs1 hs]
  exact (hmax k j s2 hk hs2).1

/-- C121: `GV_UCBLearner`, if no two candidates ever have the same value. -/
theorem C121_gv {d : Nat} {m m' : GVModel d} {mu mu' : List ℝ} (hmu : Renumbered π mu mu') {c c' : Nat → Nat → ℝ}
    (hm : m.cov mu.length = .ok c) (hm' : m'.cov mu'.length = .ok c')
    (hc : ∀ a < mu.length, ∀ b < mu.length, c' (π a) (π b) = c a b) (h : IsCov mu.length c) (h' : IsCov mu'.length c')
    (alpha : ℝ)
    (hn : ∀ l : List Nat, l.Nodup → (∀ k ∈ l, k < mu.length) → ∀ i < mu.length, ∀ j < mu.length, i ∉ l → j ∉ l →
      gvValue c (fun i => mu[i]?.getD 0) alpha l i = gvValue c (fun i => mu[i]?.getD 0) alpha l j → i = j)
    {ordL ordL' : Nat → Finset Nat → List Nat} (ho : ∀ t, Enumerates (ordL t)) (ho' : ∀ t, Enumerates (ordL' t))
    (hd : ∀ t S, (ordL t S).Nodup) (hd' : ∀ t S, (ordL' t S).Nodup)
    (alwaysBest pairFirst : Bool) (hb : alwaysBest = true → mu.Nodup) {ord ord' : Finset Nat → List Nat}
    (hord : Enumerates ord) (hord' : Enumerates ord') (numAlts : Nat) {prefer prev : Finset Nat}
    (hpref : prefer ⊆ Finset.range mu.length) (hprev : prev ⊆ Finset.range mu.length) :
    learnerSelect (gvLearner ordL' m' mu' alpha) alwaysBest pairFirst none ord' mu' numAlts (renumSet π prefer)
        (renumSet π prev) =
      (learnerSelect (gvLearner ordL m mu alpha) alwaysBest pairFirst none ord mu numAlts prefer prev).map (List.map π) := by
  refine C121_select rfl rfl hmu ?_ alwaysBest pairFirst hb none hord hord' numAlts hpref hprev
  intro t S p hS hp hdis
  have hlt := fun i => renumbered_lt hmu i
  have hempty : ∀ {ordL : Nat → Finset Nat → List Nat} {m : GVModel d} {mu : List ℝ} {c : Nat → Nat → ℝ} (q : Finset Nat),
      (∀ t, Enumerates (ordL t)) → m.cov mu.length = .ok c → (gvLearner ordL m mu alpha).greedy t ∅ q = .error .valueError := by
    intro ordL m mu c q ho hm
    have : ordL t ∅ = [] := List.eq_nil_iff_forall_not_mem.2 fun i hi => by simpa using (ho t ∅ i).1 hi
    simp only [gvLearner, this, gvGreedy, hm, bind, Except.bind]
    rw [if_neg (by simp)]
    rfl
  rcases S.eq_empty_or_nonempty with rfl | hne
  · rw [renumSet_empty.2 rfl, hempty p ho hm, hempty _ ho' hm']
    rfl
  · have hval : ∀ i ∈ S, gvValue c' (fun i => mu'[i]?.getD 0) alpha (ordL' t (renumSet π p)) (π i) =
        gvValue c (fun i => mu[i]?.getD 0) alpha (ordL t p) i := by
      intro i hi
      have hip := Finset.disjoint_left.1 hdis hi
      have hpl : ∀ k ∈ ordL t p, k < mu.length := fun k hk => by simpa using hp ((ho t p k).1 hk)
      have hl : (ordL t p).length = (ordL' t (renumSet π p)).length := by
        rw [← List.toFinset_card_of_nodup (hd t p), ← List.toFinset_card_of_nodup (hd' t _)]
        have e1 : (ordL t p).toFinset = p := by ext k; rw [List.mem_toFinset, ho t p k]
        have e2 : (ordL' t (renumSet π p)).toFinset = renumSet π p := by ext k; rw [List.mem_toFinset, ho' t _ k]
        rw [e1, e2, renumSet, Finset.card_map]
      have hin : i ∉ ordL t p := fun h => hip ((ho t p i).1 h)
      have hin' : π i ∉ ordL' t (renumSet π p) := fun h => hip (mem_renumSet.1 ((ho' t _ _).1 h))
      rw [gvValue, gvValue, ← hl, covDet_renum (π := π) (c := c) (l := ordL t p ++ [i])]
      · simp only [hmu i]
      · intro a ha b hb
        refine hc a ?_ b ?_
        · rcases List.mem_append.1 ha with h | h
          · exact hpl a h
          · rw [List.mem_singleton.1 h]; exact Finset.mem_range.1 (hS hi)
        · rcases List.mem_append.1 hb with h | h
          · exact hpl b h
          · rw [List.mem_singleton.1 h]; exact Finset.mem_range.1 (hS hi)
      · exact List.nodup_append.2 ⟨hd t p, by simp, by intro a ha b hb; rw [List.mem_singleton.1 hb]; rintro rfl; exact hin ha⟩
      · exact List.nodup_append.2 ⟨hd' t _, by simp, by intro a ha b hb; rw [List.mem_singleton.1 hb]; rintro rfl; exact hin' ha⟩
      · intro x
        simp [ho' t _ _, ho t _ _]
    refine choose_renum (R := fun i j => (gvValue c (fun i => mu[i]?.getD 0) alpha (ordL t p) j).getD 0 ≤
        (gvValue c (fun i => mu[i]?.getD 0) alpha (ordL t p) i).getD 0)
      (R' := fun i j => (gvValue c' (fun i => mu'[i]?.getD 0) alpha (ordL' t (renumSet π p)) j).getD 0 ≤
        (gvValue c' (fun i => mu'[i]?.getD 0) alpha (ordL' t (renumSet π p)) i).getD 0) ?_ ?_
      (gv_picks ho hm h alpha t hne hS hp)
      (gv_picks ho' hm' h' alpha t (renumSet_nonempty.2 hne) (renumSet_sub hlt hS) (renumSet_sub hlt hp))
    · intro a ha b hb h
      rwa [hval a ha, hval b hb] at h
    · intro a ha b hb h1 h2
      have hpl : ∀ k ∈ ordL t p, k < mu.length := fun k hk => by simpa using hp ((ho t p k).1 hk)
      have haN := Finset.mem_range.1 (hS ha)
      have hbN := Finset.mem_range.1 (hS hb)
      refine hn (ordL t p) (hd t p) hpl a haN b hbN (fun h => Finset.disjoint_left.1 hdis ha ((ho t p a).1 h))
        (fun h => Finset.disjoint_left.1 hdis hb ((ho t p b).1 h)) ?_
      obtain ⟨s1, -, e1⟩ := gvValue_eq h (fun i => mu[i]?.getD 0) alpha hpl haN
      obtain ⟨s2, -, e2⟩ := gvValue_eq h (fun i => mu[i]?.getD 0) alpha hpl hbN
      rw [e1, e2] at h1 h2 ⊢
      simp only [Option.getD_some] at h1 h2
      exact congrArg some (le_antisymm h2 h1)

section
variable {N : Nat} {σ : Equiv.Perm (Fin N)}

private lemma snoc_listing {prev prev' : List (Fin N)} (hn : prev.Nodup) (hn' : prev'.Nodup)
    (h : ∀ x, σ x ∈ prev' ↔ x ∈ prev) {i : Fin N} (hi : i ∉ prev) :
    (prev ++ [i]).Nodup ∧ (prev' ++ [σ i]).Nodup ∧ ∀ x, σ x ∈ prev' ++ [σ i] ↔ x ∈ prev ++ [i] := by
  refine ⟨List.nodup_append.2 ⟨hn, by simp, ?_⟩, List.nodup_append.2 ⟨hn', by simp, ?_⟩, fun x => by simp [h]⟩
  · intro a ha b hb
    rw [List.mem_singleton.1 hb]
    rintro rfl
    exact hi ha
  · intro a ha b hb
    rw [List.mem_singleton.1 hb]
    rintro rfl
    exact hi ((h i).1 ha)

/-- C121: the greedy step of `MutualInfoLearner` names the same candidate and reports the same gain, in whatever order the
candidates are numbered and the two sets listed, if no two offered candidates have the same gain. -/
theorem C121_mutual_info {s : Nat} (hs : 0 < s) (M : Nat) (peak : ℝ) {w w' : Fin s → Fin N → ℝ}
    (hw : ∀ i j, w' i (σ j) = w i j) {ind ind' prev prev' : List (Fin N)} (hi : ∀ x, σ x ∈ ind' ↔ x ∈ ind)
    (hp : ∀ x, σ x ∈ prev' ↔ x ∈ prev) (hn : prev.Nodup) (hn' : prev'.Nodup) (hd : ∀ i ∈ ind, i ∉ prev)
    (hinj : ∀ i ∈ ind, ∀ j ∈ ind, mutualInfoGain M peak w (prev ++ [i]) = mutualInfoGain M peak w (prev ++ [j]) → i = j) :
    mutualInfoGreedy M peak w' ind' prev' = (mutualInfoGreedy M peak w ind prev).map fun q => (σ q.1, q.2) := by
  have hok : ∀ (w : Fin s → Fin N → ℝ) (prev : List (Fin N)) c, ∃ g, mutualInfoGain M peak w (prev ++ [c]) = .ok g := by
    intro w prev c
    have hne : (Finset.univ : Finset (Fin s × Fin (prev ++ [c]).length)).Nonempty := ⟨(⟨0, hs⟩, ⟨0, by simp⟩), Finset.mem_univ _⟩
    rw [mutualInfoGain, pHumanChoice2, dif_pos hne]
    exact ⟨_, rfl⟩
  have hbest : ∀ {w : Fin s → Fin N → ℝ} {prev : List (Fin N)} {G : Fin N → ℝ},
      (∀ c, mutualInfoGain M peak w (prev ++ [c]) = .ok (G c)) → ∀ ind, mutualInfoGreedy M peak w ind prev = bestOf ind G := by
    intro w prev G hG ind
    have hmap : ∀ l : List (Fin N), l.mapM (fun idx => mutualInfoGain M peak w (prev ++ [idx])) = .ok (l.map G) := by
      intro l
      induction l with
      | nil => rfl
      | cons a l ih => rw [List.mapM_cons, hG, ih]; rfl
    rw [mutualInfoGreedy, hmap]
    simp only [bestOf, bind, Except.bind]
    generalize npArgmax (ind.map G) = r
    cases r with
    | error e => rfl
    | ok b =>
      simp only
      generalize (ind.map G)[b]? = g
      generalize ind[b]? = a
      cases a <;> cases g <;> rfl
  choose G hG using hok w prev
  choose G' hG' using hok w' prev'
  rw [hbest hG, hbest hG']
  refine bestOf_renum σ hi ?_ ?_
  · intro i hii
    obtain ⟨h1, h2, h3⟩ := snoc_listing hn hn' hp (hd i hii)
    have := mutualInfoGain_renum M peak σ hw h1 h2 h3
    rw [hG, hG'] at this
    exact Except.ok.inj this
  · intro i hii j hj h
    exact hinj i hii j hj (by rw [hG, hG, h])

/-- C121: the greedy step of `BayesInfoGain`. -/
theorem C121_bayes (minLog : ℝ) (meth : PQBMethod) {pB pB' : Fin N → ℝ} {P P' : Fin N → Fin N → ℝ}
    (hB : ∀ b, pB' (σ b) = pB b) (hP : ∀ a b, P' (σ a) (σ b) = P a b) {ind ind' prev prev' : List (Fin N)}
    (hi : ∀ x, σ x ∈ ind' ↔ x ∈ ind) (hp : ∀ x, σ x ∈ prev' ↔ x ∈ prev) (hn : prev.Nodup) (hn' : prev'.Nodup)
    (hd : ∀ i ∈ ind, i ∉ prev)
    (hinj : ∀ i ∈ ind, ∀ j ∈ ind, calcHBQ minLog meth pB P (prev ++ [i]) = calcHBQ minLog meth pB P (prev ++ [j]) → i = j) :
    bayesGreedy minLog meth pB' P' ind' prev' =
      (bayesGreedy minLog meth pB P ind prev).map fun o => o.map fun q => (σ q.1, q.2) := by
  have hnil : ∀ {l l' : List (Fin N)}, (∀ x, σ x ∈ l' ↔ x ∈ l) → (l' = [] ↔ l = []) := by
    intro l l' h
    rw [List.eq_nil_iff_forall_not_mem, List.eq_nil_iff_forall_not_mem]
    exact ⟨fun h1 x hx => h1 _ ((h x).2 hx), fun h1 y hy => by
      obtain ⟨x, rfl⟩ := σ.surjective y
      exact h1 x ((h x).1 hy)⟩
  have hbest : ∀ (pB : Fin N → ℝ) (P : Fin N → Fin N → ℝ) (ind prev : List (Fin N)), bayesGreedy minLog meth pB P ind prev =
      if prev = [] ∧ ind ≠ [] then .ok none else (bestOf ind fun i => clippedEntropy minLog pB -
        calcHBQ minLog meth pB P (prev ++ [i])).map some := by
    intro pB P ind prev
    unfold bayesGreedy
    split
    · rfl
    · simp only [bestOf, bind, Except.bind]
      generalize npArgmax (ind.map fun i => clippedEntropy minLog pB - calcHBQ minLog meth pB P (prev ++ [i])) = r
      cases r with
      | error e => rfl
      | ok b =>
        simp only
        generalize (ind.map fun i => clippedEntropy minLog pB - calcHBQ minLog meth pB P (prev ++ [i]))[b]? = g
        generalize ind[b]? = a
        cases a <;> cases g <;> rfl
  rw [hbest, hbest]
  simp only [ne_eq, hnil hi, hnil hp]
  split
  · rfl
  · rw [bestOf_renum (val := fun i => clippedEntropy minLog pB - calcHBQ minLog meth pB P (prev ++ [i])) σ hi]
    · cases bestOf ind _ <;> rfl
    · intro i hii
      obtain ⟨h1, h2, h3⟩ := snoc_listing hn hn' hp (hd i hii)
      rw [calcHBQ_renum minLog meth σ hB hP h1 h2 h3, clippedEntropy_renum minLog σ hB]
    · intro i hii j hj h
      exact hinj i hii j hj (by linarith)

/-- C121: the greedy step of `AcquisitionSelection`. -/
theorem C121_alignment {M : Nat} (f : Fin M → Fin M → ℝ) {P P' : Fin M → Fin N → Fin N → ℝ}
    (hP : ∀ w a b, P' w (σ a) (σ b) = P w a b) {ind ind' prev prev' : List (Fin N)} (hi : ∀ x, σ x ∈ ind' ↔ x ∈ ind)
    (hp : ∀ x, σ x ∈ prev' ↔ x ∈ prev) (hn : prev.Nodup) (hn' : prev'.Nodup) (hd : ∀ i ∈ ind, i ∉ prev)
    (hinj : ∀ i ∈ ind, ∀ j ∈ ind, greedyAlign f P prev i = greedyAlign f P prev j → i = j) :
    alignGreedy f P' ind' prev' = (alignGreedy f P ind prev).map fun q => (σ q.1, q.2) := by
  have hnil : ∀ {l l' : List (Fin N)}, (∀ x, σ x ∈ l' ↔ x ∈ l) → (l' = [] ↔ l = []) := by
    intro l l' h
    rw [List.eq_nil_iff_forall_not_mem, List.eq_nil_iff_forall_not_mem]
    exact ⟨fun h1 x hx => h1 _ ((h x).2 hx), fun h1 y hy => by
      obtain ⟨x, rfl⟩ := σ.surjective y
      exact h1 x ((h x).1 hy)⟩
  have hbest : ∀ (P : Fin M → Fin N → Fin N → ℝ) (ind prev : List (Fin N)), alignGreedy f P ind prev =
      if prev = [] then .error (if ind = [] then .valueError else .indexError) else bestOf ind (greedyAlign f P prev) := by
    intro P ind prev
    rw [alignGreedy]
    split
    · rfl
    · simp only [bestOf, bind, Except.bind]
      generalize npArgmax (ind.map (greedyAlign f P prev)) = r
      cases r with
      | error e => rfl
      | ok b =>
        simp only
        generalize (ind.map (greedyAlign f P prev))[b]? = g
        generalize ind[b]? = a
        cases a <;> cases g <;> rfl
  rw [hbest, hbest]
  simp only [hnil hi, hnil hp]
  split
  · rfl
  · refine bestOf_renum σ hi ?_ hinj
    intro c hc
    obtain ⟨h1, h2, h3⟩ := snoc_listing hn hn' hp (hd c hc)
    obtain ⟨e, he⟩ := listing_equiv σ h1 h2 h3
    have hv : ∀ (P : Fin M → Fin N → Fin N → ℝ) (prev : List (Fin N)) (c : Fin N), greedyAlign f P prev c =
        ∑ q : Fin (prev ++ [c]).length, (∑ w, ∑ w', chooseProb (P w') (prev ++ [c]) q * chooseProb (P w) (prev ++ [c]) q *
          f w w') / (M * M : ℝ) / ((∑ w, chooseProb (P w) (prev ++ [c]) q) / M) := by
      intro P prev c
      rw [greedyAlign]
      refine Fintype.sum_equiv (finCongr (by simp)) _ _ fun q => ?_
      simp only [C57_greedy_probs]
      rfl
    rw [hv, hv, ← Equiv.sum_comp e]
    simp only [fun w => chooseProb_renum (hP w) e he]

/-- C121: the pair picked from a metric is the same pair, in whatever order `argsort` lists equal entries and
whichever of them is drawn, if no two pairs have the same metric. The order of the two members is left to the draw. -/
theorem C121_pair {m m' : Fin N → Fin N → K} (hm : ∀ a b, m' (σ a) (σ b) = m a b)
    (hinj : ∀ a b c d, a ≠ b → c ≠ d → m a b = m c d → (a = c ∧ b = d) ∨ (a = d ∧ b = c))
    {sorted sorted' : List (Fin N × Fin N)} (hs : SortedPairs m sorted) (hs' : SortedPairs m' sorted') (hN : 2 ≤ N)
    {draw draw' : Nat → Nat} (hd : ∀ k, 0 < k → draw k < k) (hd' : ∀ k, 0 < k → draw' k < k) {prev prev' : Finset Nat}
    (hp : ∀ i : Fin N, (σ i).val ∈ prev' ↔ i.val ∈ prev) (hnew : ∃ i : Fin N, i.val ∉ prev) :
    ∃ a b, pickPair m sorted draw prev = .ok (a, b) ∧
      (pickPair m' sorted' draw' prev' = .ok (σ a, σ b) ∨ pickPair m' sorted' draw' prev' = .ok (σ b, σ a)) := by
  obtain ⟨⟨a, b⟩, e1, hab, hfr, hmax, -⟩ := C49_pick_pair hs hN draw hd prev hnew
  obtain ⟨⟨x, y⟩, e2, hxy, hfr', hmax', -⟩ := C49_pick_pair hs' hN draw' hd' prev'
    (by obtain ⟨i, hi⟩ := hnew; exact ⟨σ i, fun h => hi ((hp i).1 h)⟩)
  obtain ⟨c, rfl⟩ := σ.surjective x
  obtain ⟨d, rfl⟩ := σ.surjective y
  simp only [ne_eq, σ.injective.eq_iff, hp, hm] at hab hfr hmax hxy hfr' hmax' e1 e2
  have h1 := hmax c d hxy hfr'
  have h2 := hmax' (σ a) (σ b) (by simpa [σ.injective.eq_iff] using hab) (by simpa only [hp] using hfr)
  rw [hm] at h2
  rcases hinj a b c d hab hxy (le_antisymm h2 h1) with ⟨rfl, rfl⟩ | ⟨rfl, rfl⟩
  · exact ⟨a, b, e1, .inl e2⟩
  · exact ⟨a, b, e1, .inr e2⟩

end

/-- The hypotheses of `C121_best`: three candidates in reverse order. -/
example : Renumbered (Equiv.swap 0 2) [(3 : ℤ), 9, 1] [1, 9, 3] ∧ [(3 : ℤ), 9, 1].Nodup := by
  refine ⟨?_, by decide⟩
  intro i
  match i with
  | 0 => simp
  | 1 => rw [Equiv.swap_apply_of_ne_of_ne (by omega) (by omega)]; rfl
  | 2 => simp
  | i + 3 => rw [Equiv.swap_apply_of_ne_of_ne (by omega) (by omega)]; rfl

/-- … and what they give: the same two candidates. -/
example : learnerSelect (bestLearner (fun _ => sortedList) [1, 9, 3]) false true none sortedList ([1, 9, 3] : List ℤ) 2
      (renumSet (Equiv.swap 0 2) {0, 1, 2}) ∅ =
    (learnerSelect (bestLearner (fun _ => sortedList) [3, 9, 1]) false true none sortedList ([3, 9, 1] : List ℤ) 2 {0, 1, 2}
      ∅).map (List.map (Equiv.swap 0 2)) := by
  decide +kernel

/-- The hypothesis of `C121_gv` on the values: two uncorrelated candidates of variance 1 and means 0 and 1. -/
example (l : List Nat) (hl : l.Nodup) (hb : ∀ k ∈ l, k < 2) (i : Nat) (hi : i < 2) (j : Nat) (hj : j < 2) (hil : i ∉ l)
    (hjl : j ∉ l) (h : gvValue (fun a b => if a = b then 1 else 0) (fun i => ([0, 1] : List ℝ)[i]?.getD 0) 1 l i =
      gvValue (fun a b => if a = b then 1 else 0) (fun i => ([0, 1] : List ℝ)[i]?.getD 0) 1 l j) : i = j := by
  by_contra hij
  have h0 : l = [] := List.eq_nil_iff_forall_not_mem.2 fun k hk => by
    have := hb k hk
    have h1 : k ≠ i := fun h => hil (h ▸ hk)
    have h2 : k ≠ j := fun h => hjl (h ▸ hk)
    omega
  subst h0
  rw [C77_first, C77_first] at h
  interval_cases i <;> interval_cases j <;> simp_all

/-- The hypothesis of `C121_pair` on the metric. -/
example : ∀ a b c d : Fin 3, a ≠ b → c ≠ d → a.val + b.val = c.val + d.val → (a = c ∧ b = d) ∨ (a = d ∧ b = c) := by
  decide +kernel

/-- The hypotheses of `C121_mutual_info` on the listings: two candidates exchanged, one selected before. -/
example : (∀ x : Fin 3, Equiv.swap 0 1 x ∈ [1, 0] ↔ x ∈ [(0 : Fin 3), 1]) ∧ (∀ x : Fin 3, Equiv.swap 0 1 x ∈ [2] ↔ x ∈ [2]) ∧
    (∀ i ∈ [(0 : Fin 3), 1], i ∉ [(2 : Fin 3)]) := by
  decide +kernel

end Lop.Props
