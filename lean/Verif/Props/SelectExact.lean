import Verif.Proofs.SelectExact
import Verif.Props.SelectRet
import Mathlib.Tactic.IntervalCases
import Mathlib.Tactic.NormNum

/-! # Properties C44, C45 – the concrete learners; when `return_not_selected` raises -/

namespace Lop.Props

open Lop.Spec

/-- C44, C45: the best, worst and UCB learner meet the hypotheses of the theorems on learners: for every
prediction vector they choose one of the offered indices, and it has the highest score (value, negated
value, `mean + alpha * sqrt(variance)`). None of them selects pairs. -/
theorem C45_learners (ordL : Nat → Finset Nat → List Nat) (hordL : ∀ t, Enumerates (ordL t))
    (mu var : List ℝ) (hvar : var.length = mu.length) (alpha : ℝ) :
    (GreedyBy mu.length (fun i => mu.getD i 0) (bestLearner ordL mu) ∧
      PicksMember mu.length (bestLearner ordL mu) ∧ (bestLearner ordL mu).pair = none) ∧
    (GreedyBy mu.length (fun i => - mu.getD i 0) (worstLearner ordL mu) ∧
      PicksMember mu.length (worstLearner ordL mu) ∧ (worstLearner ordL mu).pair = none) ∧
    (GreedyBy mu.length (fun i => mu.getD i 0 + alpha * Real.sqrt (var.getD i 0))
        (ucbLearner ordL mu var alpha) ∧
      PicksMember mu.length (ucbLearner ordL mu var alpha) ∧
      (ucbLearner ordL mu var alpha).pair = none) := by
  have h1 : GreedyBy mu.length (fun i => mu.getD i 0) (bestLearner ordL mu) := by
    intro t S p hS hsub
    obtain ⟨v, i, hv, hp, hb⟩ := gather_pickMax (hordL t) mu hS hsub
    refine ⟨i, hb.1, by simp only [bestLearner, hv, hp], fun j hj => ?_⟩
    have hi := Finset.mem_range.1 (hsub hb.1)
    have hj' := Finset.mem_range.1 (hsub hj)
    have := hb.2 j hj mu[i] mu[j] (by simp [hi]) (by simp [hj'])
    simpa [List.getD_eq_getElem?_getD, hi, hj'] using this
  have h2 : GreedyBy mu.length (fun i => - mu.getD i 0) (worstLearner ordL mu) := by
    intro t S p hS hsub
    obtain ⟨v, i, hv, hp, hiS, hb⟩ := gather_pickMin (hordL t) mu hS hsub
    refine ⟨i, hiS, by simp only [worstLearner, hv, hp], fun j hj => ?_⟩
    have hi := Finset.mem_range.1 (hsub hiS)
    have hj' := Finset.mem_range.1 (hsub hj)
    have := hb j hj mu[i] mu[j] (by simp [hi]) (by simp [hj'])
    simpa [List.getD_eq_getElem?_getD, hi, hj'] using this
  have h3 : GreedyBy mu.length (fun i => mu.getD i 0 + alpha * Real.sqrt (var.getD i 0))
      (ucbLearner ordL mu var alpha) := by
    intro t S p hS hsub
    have hb : ∀ i ∈ ordL t S, i < mu.length := fun i hi => by simpa using hsub ((hordL t S i).1 hi)
    obtain ⟨ms, hms, hml, hmk⟩ := gather_ok mu (ordL t S) hb
    obtain ⟨vs, hvs, hvl, hvk⟩ := gather_ok var (ordL t S) (by rw [hvar]; exact hb)
    set sc := List.zipWith (fun m v => m + alpha * Real.sqrt v) ms vs with hsc
    have hscl : sc.length = (ordL t S).length := by rw [hsc, List.length_zipWith, hml, hvl, min_self]
    obtain ⟨k, i, hp, hki, x, hx, hmax⟩ := pickMax_ok (ordL t S) sc hscl (ord_ne_nil (hordL t) hS)
    have key : ∀ (k : Nat) i, (ordL t S)[k]? = some i →
        sc[k]? = some (mu.getD i 0 + alpha * Real.sqrt (var.getD i 0)) := by
      intro k i hk
      have hi : i < mu.length := hb i (List.mem_of_getElem? hk)
      rw [hsc, List.getElem?_zipWith, hmk k i hk, hvk k i hk]
      simp [hi, hvar]
    refine ⟨i, (hordL t S i).1 (List.mem_of_getElem? hki), by simp only [ucbLearner, hms, hvs, ← hsc, hp],
      fun j hj => ?_⟩
    obtain ⟨kj, hkj⟩ := List.mem_iff_getElem?.1 ((hordL t S j).2 hj)
    have e1 := key k i hki
    have e2 := key kj j hkj
    rw [hx] at e1
    cases e1
    exact hmax _ (List.mem_of_getElem? e2)
  exact ⟨⟨h1, picks_of_greedyBy h1, rfl⟩, ⟨h2, picks_of_greedyBy h2, rfl⟩, h3, picks_of_greedyBy h3, rfl⟩

/-- C45, the exact condition: a learner that always takes an offered index of highest score, scores of
the unselected candidates all different, no pair selection, the best candidate not placed first. Then
`select` with `return_not_selected` raises exactly if there are fewer unselected candidates than asked
for, or there are fewer preferred ones than asked for and the unselected candidate of lowest score is
preferred. -/
theorem C45_exact {K S : Type*} [LinearOrder K] [LinearOrder S] (L : Learner) {mu : List K} {f : Nat → S}
    (hL : GreedyBy mu.length f L) (alwaysBest pairFirst : Bool) (maxAlts : Option Nat)
    (ord : Finset Nat → List Nat) (numAlts : Nat) (prefer prev : Finset Nat)
    (hno : L.pair = none ∨ pairFirst = false ∨ prev ≠ ∅) (hab : alwaysBest = false ∨ prev ≠ ∅)
    (hpref : prefer ⊆ Finset.range mu.length) (hn : 0 < effAlts maxAlts numAlts)
    (hf : ∀ i < mu.length, ∀ j < mu.length, i ∉ prev → j ∉ prev → f i = f j → i = j)
    (fuel : Nat) (hfuel : 2 * mu.length < fuel) :
    learnerSelectRet L alwaysBest pairFirst maxAlts ord mu numAlts prefer prev fuel
        = some (.error .exception) ↔
      (Finset.range mu.length \ prev).card < effAlts maxAlts numAlts ∨
      ((prefer \ prev).card < effAlts maxAlts numAlts ∧
        ∃ m ∈ prefer, m ∉ prev ∧ ∀ j < mu.length, j ∉ prev → f m ≤ f j) := by
  have hab' : ¬ (alwaysBest = true ∧ prev = ∅) := by
    rintro ⟨h1, h2⟩; rcases hab with h | h <;> simp_all
  have hPA : prefer \ prev ⊆ Finset.range mu.length \ prev :=
    Finset.sdiff_subset_sdiff hpref (Finset.Subset.refl _)
  have hAc : (Finset.range mu.length \ prev).card ≤ mu.length := by
    simpa using Finset.card_le_card (Finset.sdiff_subset (s := Finset.range mu.length) (t := prev))
  have hinj : Set.InjOn f (Finset.range mu.length \ prev : Finset Nat) := by
    intro i hi j hj h
    simp only [Finset.coe_sdiff, Finset.coe_range, Set.mem_diff, Set.mem_Iio, Finset.mem_coe] at hi hj
    exact hf i hi.1 j hj.1 hi.2 hj.2 h
  simp only [learnerSelectRet, startSelection, if_neg hab']
  rw [retLoop_doomed hPA Finset.sdiff_subset hinj L hL pairFirst _ prev hno fuel 0 _
    ⟨by simp, by simp, by simp, by simp, by simp, by simp, by simp⟩ (by simp)
    (by simp [retMeasure]; omega)]
  simp only [RetDoomed, List.length_nil, zero_add, List.toFinset_nil, Finset.sdiff_empty, hn, true_and,
    Finset.mem_sdiff, Finset.mem_range]
  constructor
  · rintro (h | h | ⟨h, m, hm, hmin⟩)
    · left; rw [h]; simpa using hn
    · exact .inl h
    · exact .inr ⟨h, m, hm.1, hm.2, fun j hj hjp => hmin j ⟨hj, hjp⟩⟩
  · rintro (h | ⟨h, m, hm, hmp, hmin⟩)
    · exact .inr (.inl h)
    · exact .inr (.inr ⟨h, m, ⟨hm, hmp⟩, fun j hj => hmin j hj.1 hj.2⟩)

/-- C45 for the best learner with different predictions: it raises although there are enough
candidates exactly if too few are preferred and the worst candidate is one of them. -/
theorem C45_best_exact (ordL : Nat → Finset Nat → List Nat) (hordL : ∀ t, Enumerates (ordL t))
    (mu : List ℝ) (hmu : mu.Nodup) (pairFirst : Bool) (ord : Finset Nat → List Nat) (numAlts : Nat)
    (prefer prev : Finset Nat) (hpref : prefer ⊆ Finset.range mu.length) (hn : 0 < numAlts)
    (hle : numAlts ≤ (Finset.range mu.length \ prev).card) (fuel : Nat) (hfuel : 2 * mu.length < fuel) :
    learnerSelectRet (bestLearner ordL mu) false pairFirst none ord mu numAlts prefer prev fuel
        = some (.error .exception) ↔
      (prefer \ prev).card < numAlts ∧
        ∃ m ∈ prefer, m ∉ prev ∧ ∀ j < mu.length, j ∉ prev → mu.getD m 0 ≤ mu.getD j 0 := by
  obtain ⟨⟨hg, -, hp⟩, -⟩ := C45_learners ordL hordL mu mu rfl 0
  rw [C45_exact (bestLearner ordL mu) hg false pairFirst none ord numAlts prefer prev (.inl hp)
    (.inl rfl) hpref hn (fun i hi j hj _ _ h => ?_) fuel hfuel]
  · simp only [effAlts]
    exact or_iff_right (by omega)
  · simp only [List.getD_eq_getElem?_getD, List.getElem?_eq_getElem, hi, hj, Option.getD_some] at h
    exact (List.Nodup.getElem_inj_iff hmu).1 h

/-- Instance of `C45_exact` with an exception: candidates of value 4, 9, 8, the worst preferred, two
asked for. -/
example (fuel : Nat) (hfuel : 6 < fuel) :
    learnerSelectRet (bestLearner (fun _ => sortedList) ([4, 9, 8] : List ℝ)) false true none sortedList
      ([4, 9, 8] : List ℝ) 2 {0} ∅ fuel = some (.error .exception) := by
  rw [C45_best_exact (fun _ => sortedList) (fun _ => sort_enumerates) _ (by norm_num) _ _ _ _ _
    (by decide) (by norm_num) (by decide) fuel (by simpa using hfuel)]
  refine ⟨by decide, 0, by simp, by simp, ?_⟩
  intro j hj _
  simp only [List.length_cons, List.length_nil] at hj
  interval_cases j <;> norm_num

/-- Instance without an exception: the preferred candidate is not the worst. -/
example (fuel : Nat) (hfuel : 6 < fuel) :
    learnerSelectRet (bestLearner (fun _ => sortedList) ([4, 9, 8] : List ℝ)) false true none sortedList
      ([4, 9, 8] : List ℝ) 2 {2} ∅ fuel ≠ some (.error .exception) := by
  rw [Ne, C45_best_exact (fun _ => sortedList) (fun _ => sort_enumerates) _ (by norm_num) _ _ _ _ _
    (by decide) (by norm_num) (by decide) fuel (by simpa using hfuel)]
  rintro ⟨-, m, hm, -, h⟩
  simp only [Finset.mem_singleton] at hm
  subst hm
  have := h 0 (by simp) (by simp)
  norm_num at this

end Lop.Props
