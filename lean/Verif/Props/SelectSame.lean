import Verif.Proofs.SelectSame
import Verif.Props.SelectExact

/-! # Properties C45, C141 – asking for the skipped points does not change the selection -/

namespace Lop.Props

open Lop.Spec

/-- C141: a learner that always takes an offered index of highest score, scores of the unselected
candidates all different, no pair selection, the best candidate not placed first. Whenever `select` with
`return_not_selected` returns, its selection is the one `select` returns without that option, and the
skipped points are exactly the unselected non-preferred candidates left out although their score is
higher than that of some selected preferred candidate, in order of decreasing score. -/
theorem C141_same {K S : Type*} [LinearOrder K] [LinearOrder S] (L : Learner) {mu : List K} {f : Nat → S}
    (hL : GreedyBy mu.length f L) (alwaysBest pairFirst : Bool) (maxAlts : Option Nat)
    {ord : Finset Nat → List Nat} (hord : Enumerates ord) (numAlts : Nat) (prefer prev : Finset Nat)
    (hno : L.pair = none ∨ pairFirst = false) (hab : alwaysBest = false ∨ prev ≠ ∅)
    (hpref : prefer ⊆ Finset.range mu.length) (hn : 0 < effAlts maxAlts numAlts)
    (hf : ∀ i < mu.length, ∀ j < mu.length, i ∉ prev → j ∉ prev → f i = f j → i = j)
    (fuel : Nat) (sel skipped : List Nat)
    (hr : learnerSelectRet L alwaysBest pairFirst maxAlts ord mu numAlts prefer prev fuel
      = some (.ok (sel, skipped))) :
    learnerSelect L alwaysBest pairFirst maxAlts ord mu numAlts prefer prev = .ok sel ∧
      skipped.Pairwise (fun i j => f j < f i) ∧
      ∀ x, x ∈ skipped ↔ x < mu.length ∧ x ∉ prev ∧ x ∉ prefer ∧ x ∉ sel ∧
        ∃ p ∈ sel, p ∈ prefer ∧ f p < f x := by
  have hab' : ¬ (alwaysBest = true ∧ prev = ∅) := by
    rintro ⟨h1, h2⟩; rcases hab with h | h <;> simp_all
  have hPA : prefer \ prev ⊆ Finset.range mu.length \ prev :=
    Finset.sdiff_subset_sdiff hpref (Finset.Subset.refl _)
  have hinj : Set.InjOn f (Finset.range mu.length \ prev : Finset Nat) := by
    intro i hi j hj h
    simp only [Finset.coe_sdiff, Finset.coe_range, Set.mem_diff, Set.mem_Iio, Finset.mem_coe] at hi hj
    exact hf i hi.1 j hj.1 hi.2 hj.2 h
  simp only [learnerSelectRet, startSelection, if_neg hab'] at hr
  obtain ⟨s, hi, ho, rfl, rfl, hlen⟩ := retLoop_ord hPA Finset.sdiff_subset hinj L hL pairFirst _ prev
    (hno.imp_right .inl) fuel 0 _ ⟨by simp, by simp, by simp, by simp, by simp, by simp, by simp⟩
    (s0 := []) ⟨⟨[], rfl, trivial⟩, by simp, by simp, by simp, by simp⟩ hr
  obtain ⟨r, hr, hch⟩ := ho.chosen
  rw [List.nil_append] at hr
  subst hr
  refine ⟨?_, ?_, fun x => ⟨fun hx => ?_, ?_⟩⟩
  · have hcard : effAlts maxAlts numAlts ≤ (Finset.range mu.length \ prev).card := by
      rw [← hlen, ← List.toFinset_card_of_nodup hi.sel_nodup]
      exact Finset.card_le_card fun x hx => hi.sel_sub x (List.mem_toFinset.1 hx)
    obtain ⟨sel, hsel, hl, -, hc⟩ := (learnerSelect_cases (P := fun T i => ∀ j ∈ T, f j ≤ f i) L alwaysBest
      pairFirst maxAlts hord mu numAlts prefer prev (hno.imp_right .inl) hpref hn hL).1 hcard
    rw [hsel, hch.unique hPA hinj (hc hab') (hlen.trans hl.symm)]
  · refine (List.pairwise_iff_forall_sublist.2 fun {x y} hxy => ?_)
    have h1 := List.pairwise_iff_forall_sublist.1 ho.desc hxy
    have h2 : x ≠ y := List.pairwise_iff_forall_sublist.1 hi.nsel_nodup hxy
    have hx := hi.nsel_sub x (hxy.subset (by simp))
    have hy := hi.nsel_sub y (hxy.subset (by simp))
    exact lt_of_le_of_ne h1 fun he => h2 (hinj hy.1 hx.1 he).symm
  · obtain ⟨h1, h2, h3⟩ := hi.nsel_sub x hx
    obtain ⟨p, hp, -, hpP, hlt⟩ := ho.why (.inr hlen) x hx
    simp only [Finset.mem_sdiff, Finset.mem_range, not_and, not_not] at h1 h2 hpP
    exact ⟨h1.1, h1.2, fun h => h1.2 (h2 h), h3, p, hp, hpP.1, hlt⟩
  · rintro ⟨h1, h2, h3, h4, p, hp, hpP, hlt⟩
    by_contra hx
    have hpA := hi.sel_sub p hp
    have hxa : x ∈ s.alln := by
      rw [hi.alln_eq]
      simp [h1, h2, h4, hx]
    exact absurd (ho.below p hp (by simp) (Finset.mem_sdiff.2 ⟨hpP, (Finset.mem_sdiff.1 hpA).2⟩) x hxa) hlt.not_ge

/-- C141 with `always_select_best` and nothing selected before, for every learner (pair-based or not):
both calls start with the same best candidate `b`, and agree from there on; the skipped points are those
left out in favour of a selected preferred candidate other than `b`. -/
theorem C141_best_first {K S : Type*} [LinearOrder K] [LinearOrder S] (L : Learner) {mu : List K}
    {f : Nat → S} (hL : GreedyBy mu.length f L) (pairFirst : Bool) (maxAlts : Option Nat)
    {ord : Finset Nat → List Nat} (hord : Enumerates ord) (numAlts : Nat) (prefer : Finset Nat)
    (hpref : prefer ⊆ Finset.range mu.length) (hmu : 0 < mu.length)
    (hf : ∀ i < mu.length, ∀ j < mu.length, f i = f j → i = j)
    (fuel : Nat) (sel skipped : List Nat)
    (hr : learnerSelectRet L true pairFirst maxAlts ord mu numAlts prefer ∅ fuel
      = some (.ok (sel, skipped))) :
    learnerSelect L true pairFirst maxAlts ord mu numAlts prefer ∅ = .ok sel ∧
      skipped.Pairwise (fun i j => f j < f i) ∧
      ∃ b, sel.head? = some b ∧ IsBestIn mu (if prefer = ∅ then Finset.range mu.length else prefer) b ∧
        ∀ x, x ∈ skipped ↔ x < mu.length ∧ x ∉ prefer ∧ x ∉ sel ∧
          ∃ p ∈ sel, p ≠ b ∧ p ∈ prefer ∧ f p < f x := by
  obtain ⟨b, hstart, hbN, hbest, hinv⟩ := bestStart hord mu prefer hpref hmu
  have hinj : Set.InjOn f (Finset.range mu.length : Finset Nat) := by
    intro i hi j hj h
    exact hf i (by simpa using hi) j (by simpa using hj) h
  simp only [learnerSelectRet, hstart] at hr
  obtain ⟨s, hi, ho, rfl, rfl, hlen⟩ := retLoop_ord hpref (Finset.Subset.refl _) hinj L hL pairFirst _
    (insert b ∅) (.inr (.inr (by simp))) fuel 0 _ hinv
    (s0 := [b]) ⟨⟨[], rfl, trivial⟩, by simp, by simp, by simp, by simp⟩ hr
  obtain ⟨r, hr, hch⟩ := ho.chosen
  refine ⟨?_, ?_, b, by simp [hr], hbest, fun x => ⟨fun hx => ?_, ?_⟩⟩
  · have hcard : s.sel.length ≤ mu.length := by
      rw [← List.toFinset_card_of_nodup hi.sel_nodup]
      simpa using Finset.card_le_card fun x hx => hi.sel_sub x (List.mem_toFinset.1 hx)
    have hrl : r.length + 1 = effAlts maxAlts numAlts := by rw [← hlen, hr]; simp [add_comm]
    have hpa : prefer \ insert b ∅ ⊆ Finset.range mu.length \ insert b ∅ :=
      Finset.sdiff_subset_sdiff hpref (Finset.Subset.refl _)
    have hloop : learnerSelect L true pairFirst maxAlts ord mu numAlts prefer ∅ =
        greedyRun L.greedy (prefer \ insert b ∅) (Finset.range mu.length \ insert b ∅) (insert b ∅)
          r.length 0 [b] := by
      simp only [learnerSelect, hstart, ← hrl]
      rw [selectLoop_eq_greedyRun L pairFirst mu.length (r.length + 1) (insert b ∅) (prefer \ insert b ∅)
        (r.length + 1) 0 [b] _ none (.inr (.inr (by simp))) (by ext x; simp) (.inl rfl) (by simp)]
      simp
    have hc : ((Finset.range mu.length \ insert b ∅) \ [b].toFinset).card = mu.length - 1 := by
      rw [show (Finset.range mu.length \ insert b ∅) \ [b].toFinset = (Finset.range mu.length).erase b by
        ext x; simp; tauto, Finset.card_erase_of_mem (Finset.mem_range.2 hbN), Finset.card_range]
    obtain ⟨r', hr', hl', hch'⟩ := greedyRun_ok (P := fun T i => ∀ j ∈ T, f j ≤ f i) (prev := insert b ∅)
      hpa (fun t T p h1 h2 => hL t T p h1 (h2.trans Finset.sdiff_subset)) r.length 0 [b]
      (by rw [hc]; omega)
    have hch'' : ChosenBy (fun T i => ∀ j ∈ T, f j ≤ f i) prefer (Finset.range mu.length) [b] r' := by
      simpa using hch'.insert_prev (p := prefer) (a := Finset.range mu.length) (s := ∅) (by simp)
    rw [hloop, hr', hr, hch.unique hpref hinj hch'' hl'.symm]
  · refine (List.pairwise_iff_forall_sublist.2 fun {x y} hxy => ?_)
    have h1 := List.pairwise_iff_forall_sublist.1 ho.desc hxy
    have h2 : x ≠ y := List.pairwise_iff_forall_sublist.1 hi.nsel_nodup hxy
    have hx := hi.nsel_sub x (hxy.subset (by simp))
    have hy := hi.nsel_sub y (hxy.subset (by simp))
    exact lt_of_le_of_ne h1 fun he => h2 (hinj hy.1 hx.1 he).symm
  · obtain ⟨h1, h2, h3⟩ := hi.nsel_sub x hx
    obtain ⟨p, hp, hp0, hpP, hlt⟩ := ho.why (.inr hlen) x hx
    exact ⟨Finset.mem_range.1 h1, h2, h3, p, hp, by simpa using hp0, hpP, hlt⟩
  · rintro ⟨h1, h3, h4, p, hp, hpb, hpP, hlt⟩
    by_contra hx
    have hxa : x ∈ s.alln := by
      rw [hi.alln_eq]
      simp [h1, h4, hx]
    exact absurd (ho.below p hp (by simpa using hpb) hpP x hxa) hlt.not_ge

/-- Instance with the worst learner: the best preferred candidate first, then the worst ones, preferred
ones before the others. -/
example : learnerSelectRet (K := Int) (worstLearner (fun _ => sortedList) [4, 9, 8, 5, 1]) true true none
      sortedList [4, 9, 8, 5, 1] 3 {0, 2, 3} ∅ 11 = some (.ok ([2, 0, 3], [4])) ∧
    learnerSelect (K := Int) (worstLearner (fun _ => sortedList) [4, 9, 8, 5, 1]) true true none
      sortedList [4, 9, 8, 5, 1] 3 {0, 2, 3} ∅ = .ok [2, 0, 3] := by
  decide +kernel

/-- C45, the exact condition with `always_select_best` and nothing selected before: with `b` the best
candidate placed first, the call raises exactly if there are too few candidates, or `b` and the other
preferred ones are too few and the candidate of lowest score other than `b` is preferred. -/
theorem C45_exact_best_first {K S : Type*} [LinearOrder K] [LinearOrder S] (L : Learner) {mu : List K}
    {f : Nat → S} (hL : GreedyBy mu.length f L) (pairFirst : Bool) (maxAlts : Option Nat)
    {ord : Finset Nat → List Nat} (hord : Enumerates ord) (numAlts : Nat) (prefer : Finset Nat)
    (hpref : prefer ⊆ Finset.range mu.length) (hmu : 0 < mu.length) (hn : 0 < effAlts maxAlts numAlts)
    (hf : ∀ i < mu.length, ∀ j < mu.length, f i = f j → i = j)
    (fuel : Nat) (hfuel : 2 * mu.length < fuel) :
    ∃ b, IsBestIn mu (if prefer = ∅ then Finset.range mu.length else prefer) b ∧
      (learnerSelectRet L true pairFirst maxAlts ord mu numAlts prefer ∅ fuel = some (.error .exception) ↔
        mu.length < effAlts maxAlts numAlts ∨
        (1 + (prefer.erase b).card < effAlts maxAlts numAlts ∧
          ∃ m ∈ prefer, m ≠ b ∧ ∀ j < mu.length, j ≠ b → f m ≤ f j)) := by
  obtain ⟨b, hstart, hbN, hbest, hinv⟩ := bestStart hord mu prefer hpref hmu
  have hinj : Set.InjOn f (Finset.range mu.length : Finset Nat) := by
    intro i hi j hj h
    exact hf i (by simpa using hi) j (by simpa using hj) h
  have he : (Finset.range mu.length \ insert b ∅) \ [b].toFinset = (Finset.range mu.length).erase b := by
    ext x; simp; tauto
  have he' : prefer \ insert b ∅ = prefer.erase b := by
    ext x; simp; tauto
  have hc : ((Finset.range mu.length).erase b).card = mu.length - 1 := by
    rw [Finset.card_erase_of_mem (Finset.mem_range.2 hbN), Finset.card_range]
  rw [he, he'] at hinv
  refine ⟨b, hbest, ?_⟩
  simp only [learnerSelectRet, hstart, he, he']
  rw [retLoop_doomed hpref (Finset.Subset.refl _) hinj L hL pairFirst _ (insert b ∅)
    (.inr (.inr (by simp))) fuel 0 _ hinv (by simp; omega) (by simp [retMeasure, hc]; omega)]
  simp only [RetDoomed, List.length_singleton, List.length_nil, add_zero, hc, Finset.mem_erase,
    Finset.mem_range]
  constructor
  · rintro ⟨h1, h | h | ⟨h, m, hm, hmin⟩⟩
    · left
      rw [h] at hc
      simp at hc
      omega
    · left; omega
    · exact .inr ⟨h, m, hm.2, hm.1, fun j hj hjb => hmin j ⟨hjb, hj⟩⟩
  · rintro (h | ⟨h, m, hm, hmb, hmin⟩)
    · exact ⟨by omega, .inr (.inl (by omega))⟩
    · exact ⟨by omega, .inr (.inr ⟨h, m, ⟨hmb, hm⟩, fun j hj => hmin j hj.2 hj.1⟩)⟩

/-- Instance of `C45_exact_best_first` with an exception: 1 is best and placed first, 0 is preferred and
lowest. -/
example : learnerSelectRet (K := Int) (bestLearner (fun _ => sortedList) [4, 9, 8]) true true none
      sortedList [4, 9, 8] 3 {0, 1} ∅ 7 = some (.error .exception) := by
  decide +kernel

/-- C141 for the best and the worst learner with different predictions. -/
theorem C141_best (ordL : Nat → Finset Nat → List Nat) (hordL : ∀ t, Enumerates (ordL t))
    (mu : List ℝ) (hmu : mu.Nodup) (pairFirst : Bool) {ord : Finset Nat → List Nat} (hord : Enumerates ord)
    (numAlts : Nat) (prefer prev : Finset Nat) (hpref : prefer ⊆ Finset.range mu.length) (hn : 0 < numAlts)
    (fuel : Nat) (sel skipped : List Nat) :
    (learnerSelectRet (bestLearner ordL mu) false pairFirst none ord mu numAlts prefer prev fuel
        = some (.ok (sel, skipped)) →
      learnerSelect (bestLearner ordL mu) false pairFirst none ord mu numAlts prefer prev = .ok sel) ∧
    (learnerSelectRet (worstLearner ordL mu) false pairFirst none ord mu numAlts prefer prev fuel
        = some (.ok (sel, skipped)) →
      learnerSelect (worstLearner ordL mu) false pairFirst none ord mu numAlts prefer prev = .ok sel) := by
  obtain ⟨⟨hg, -, hp⟩, ⟨hg', -, hp'⟩, -⟩ := C45_learners ordL hordL mu mu rfl 0
  have hinj : ∀ i < mu.length, ∀ j < mu.length, mu.getD i 0 = mu.getD j 0 → i = j := by
    intro i hi j hj h
    simp only [List.getD_eq_getElem?_getD, List.getElem?_eq_getElem, hi, hj, Option.getD_some] at h
    exact (List.Nodup.getElem_inj_iff hmu).1 h
  refine ⟨fun hr => ?_, fun hr => ?_⟩
  · exact (C141_same _ hg false pairFirst none hord numAlts prefer prev (.inl hp) (.inl rfl) hpref hn
      (fun i hi j hj _ _ h => hinj i hi j hj h) fuel sel skipped hr).1
  · exact (C141_same _ hg' false pairFirst none hord numAlts prefer prev (.inl hp') (.inl rfl) hpref hn
      (fun i hi j hj _ _ h => hinj i hi j hj (neg_injective h)) fuel sel skipped hr).1

/-- Instance of C141: candidates of value 4, 9, 8, 5, 1; two preferred ones; three asked for. Candidate 1
is skipped and then taken up, candidate 2 stays skipped. -/
example : learnerSelectRet (K := Int) (bestLearner (fun _ => sortedList) [4, 9, 8, 5, 1]) false true none
      sortedList [4, 9, 8, 5, 1] 3 {0, 3} ∅ 11 = some (.ok ([3, 0, 1], [2])) ∧
    learnerSelect (K := Int) (bestLearner (fun _ => sortedList) [4, 9, 8, 5, 1]) false true none
      sortedList [4, 9, 8, 5, 1] 3 {0, 3} ∅ = .ok [3, 0, 1] := by
  decide +kernel

/-- C141 needs different scores: with equal values the two selections may differ, here because the
listing order of the offered indices depends on the set. -/
theorem C141_ties :
    learnerSelectRet (K := Int)
        (bestLearner (fun _ s => if s.card = 3 then sortedList s else (sortedList s).reverse) [1, 1, 1])
        false true none sortedList [1, 1, 1] 1 {0, 1} ∅ 7 = some (.ok ([0], [])) ∧
      learnerSelect (K := Int)
        (bestLearner (fun _ s => if s.card = 3 then sortedList s else (sortedList s).reverse) [1, 1, 1])
        false true none sortedList [1, 1, 1] 1 {0, 1} ∅ = .ok [1] := by
  decide +kernel

end Lop.Props
