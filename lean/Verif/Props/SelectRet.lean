import Verif.Proofs.SelectRet
import Verif.Props.Select

/-! # Properties C45, C46, C49 – skipped points, pair selection -/

namespace Lop.Props

open Lop.Spec

section C45
variable {K : Type*} [LinearOrder K]

/-- C45, what holds: for every learner choosing among the offered indices (no pair selection, or pair
selection not applicable), `select` with `return_not_selected` stops; the only possible failure is the
`Exception`; a result is a valid selection as in C44, together with a duplicate-free list of skipped
candidates, none of them preferred, selected or previously selected; too few candidates give the
exception; enough preferred candidates (or none at all preferred) and enough candidates give a result.
Missing: the claim that the exception occurs only when there are too few candidates – refuted below. -/
theorem C45_skipped_points_partial (L : Learner) {mu : List K} (hL : PicksMember mu.length L)
    (alwaysBest pairFirst : Bool)
    (maxAlts : Option Nat) {ord : Finset Nat → List Nat} (hord : Enumerates ord)
    (numAlts : Nat) (prefer prev : Finset Nat) (hno : L.pair = none ∨ pairFirst = false ∨ prev ≠ ∅)
    (hpref : prefer ⊆ Finset.range mu.length) (hn : 0 < effAlts maxAlts numAlts)
    (fuel : Nat) (hfuel : 2 * mu.length < fuel) :
    ∃ res, learnerSelectRet L alwaysBest pairFirst maxAlts ord mu numAlts prefer prev fuel = some res ∧
      (∀ e, res = .error e → e = .exception) ∧
      (∀ sel skipped, res = .ok (sel, skipped) →
        ValidSelection mu.length (effAlts maxAlts numAlts) prefer prev sel ∧
        skipped.Nodup ∧
        (∀ i ∈ skipped, i < mu.length ∧ i ∉ prev ∧ i ∉ prefer ∧ i ∉ sel) ∧
        (alwaysBest = true → prev = ∅ → ∃ b, sel.head? = some b ∧
          IsBestIn mu (if prefer = ∅ then Finset.range mu.length else prefer) b)) ∧
      ((Finset.range mu.length \ prev).card < effAlts maxAlts numAlts → res = .error .exception) ∧
      (effAlts maxAlts numAlts ≤ (Finset.range mu.length \ prev).card →
        effAlts maxAlts numAlts ≤ (prefer \ prev).card ∨ prefer \ prev = ∅ →
        ∃ sel skipped, res = .ok (sel, skipped)) := by
  by_cases hne : Finset.range mu.length \ prev = ∅
  · refine ⟨.error .exception, ?_, by simp, by simp, by simp, ?_⟩
    · have hp : prefer \ prev = ∅ :=
        Finset.subset_empty.1 (hne ▸ Finset.sdiff_subset_sdiff hpref (Finset.Subset.refl _))
      obtain ⟨f, rfl⟩ : ∃ f, fuel = f + 1 := ⟨fuel - 1, by omega⟩
      by_cases hab : alwaysBest = true ∧ prev = ∅
      · obtain ⟨rfl, rfl⟩ := hab
        simp only [learnerSelectRet, startSelection, selectBest, hp, hne]
        simp
      · simp only [learnerSelectRet, startSelection, if_neg hab, retLoop, hne]
        simp
        omega
    · intro h; rw [hne] at h; simp at h; omega
  · obtain ⟨s', hinv, hlast, hle, hdone, hsum, hbest, hres⟩ := learnerSelectRet_spec L hL alwaysBest
      pairFirst maxAlts hord numAlts prefer prev hno hpref hn hne fuel hfuel
    refine ⟨_, hres, ?_, ?_, ?_, ?_⟩
    · intro e he
      split at he
      · cases he
      · cases he; rfl
    · intro sel sk h
      split at h
      · rename_i hlen
        simp only [Except.ok.injEq, Prod.mk.injEq] at h
        obtain ⟨rfl, rfl⟩ := h
        refine ⟨hlen ▸ hinv.valid, hinv.nsel_nodup, ?_, hbest⟩
        intro i hi
        obtain ⟨h1, h2, h3⟩ := hinv.nsel_sub i hi
        simp only [Finset.mem_sdiff, Finset.mem_range, not_and, not_not] at h1 h2
        exact ⟨h1.1, h1.2, fun h => h1.2 (h2 h), h3⟩
      · cases h
    · intro hlt
      rw [if_neg]
      omega
    · intro hge hcase
      rw [if_pos]
      · exact ⟨_, _, rfl⟩
      · by_contra hlen
        have h0 : s'.alln = ∅ := hdone.resolve_left hlen
        rcases hcase with hc | hc
        · have hsub : prefer \ prev ⊆ s'.sel.toFinset := by
            intro x hx
            have hxA : x ∈ Finset.range mu.length \ prev :=
              Finset.sdiff_subset_sdiff hpref (Finset.Subset.refl _) hx
            have hx0 : x ∉ s'.alln := by simp [h0]
            rw [hinv.alln_eq] at hx0
            simp only [Finset.mem_sdiff, hxA, true_and, not_not, List.mem_toFinset,
              List.mem_append] at hx0
            rcases hx0 with h | h
            · simpa using h
            · exact absurd hx (hinv.nsel_sub x h).2.1
          have := Finset.card_le_card hsub
          have := s'.sel.toFinset_card_le
          omega
        · have hns : s'.nsel = [] := by
            by_contra h
            exact hlast h0 h hc
          rw [hns, h0] at hsum
          simp at hsum
          omega

/-- Instance of C45: candidate 1 is skipped, the preferred ones 0 and 2 are selected. -/
example : learnerSelectRet (K := Int) (bestLearner (fun _ => sortedList) [4, 9, 8]) false true none sortedList
    [4, 9, 8] 2 {0, 2} ∅ 7 = some (.ok ([2, 0], [1])) := by
  decide +kernel

/-- C45 as stated is false: two candidates, only candidate 0 preferred, candidate 1 better. Two points
are asked for and available, but the call raises; without `return_not_selected` it succeeds. -/
theorem C45_exception_counterexample (fuel : Nat) :
    learnerSelectRet (K := Int) (bestLearner (fun _ => sortedList) [4, 9]) false true none sortedList
        [4, 9] 2 {0} ∅ (fuel + 3) = some (.error .exception) ∧
      learnerSelect (K := Int) (bestLearner (fun _ => sortedList) [4, 9]) false true none sortedList
        [4, 9] 2 {0} ∅ = .ok [0, 1] := by
  refine ⟨?_, by decide +kernel⟩
  have h1 : retStep (bestLearner (fun _ => sortedList) ([4, 9] : List Int)) true 2 ∅ 0
      ⟨[], [], {0}, {0, 1}⟩ = .ok ⟨[], [1], {0}, {0}⟩ := by rfl
  have h2 : retStep (bestLearner (fun _ => sortedList) ([4, 9] : List Int)) true 2 ∅ 1
      ⟨[], [1], {0}, {0}⟩ = .ok ⟨[0], [1], ∅, ∅⟩ := by rfl
  have h0 : learnerSelectRet (K := Int) (bestLearner (fun _ => sortedList) [4, 9]) false true none sortedList
        [4, 9] 2 {0} ∅ (fuel + 3) = retLoop (bestLearner (fun _ => sortedList) ([4, 9] : List Int)) true 2 ∅
          (fuel + 3) 0 ⟨[], [], {0}, {0, 1}⟩ := by rfl
  rw [h0]
  simp only [retLoop, h1, h2]
  simp

end C45

section C49
variable {K : Type*} [LinearOrder K] {N : Nat}

/-- C49: for every metric on at least two candidates, every listing by decreasing value (whatever the
order among ties), every valid random draw and every previous selection that leaves a candidate: the two
picked indices are different, not both previously selected, and best among the pairs not entirely
previously selected; unless some overall best pair is entirely previously selected, they are an overall
best pair. -/
theorem C49_pick_pair {m : Fin N → Fin N → K} {sorted : List (Fin N × Fin N)} (hs : SortedPairs m sorted)
    (hN : 2 ≤ N) (draw : Nat → Nat) (hdraw : ∀ k, 0 < k → draw k < k) (prev : Finset Nat)
    (hnew : ∃ i : Fin N, i.val ∉ prev) :
    ∃ q, pickPair m sorted draw prev = .ok q ∧ q.1 ≠ q.2 ∧
      ¬ (q.1.val ∈ prev ∧ q.2.val ∈ prev) ∧
      (∀ a b : Fin N, a ≠ b → ¬ (a.val ∈ prev ∧ b.val ∈ prev) → m a b ≤ m q.1 q.2) ∧
      ((∀ a b : Fin N, a ≠ b → m a b ≤ m q.1 q.2) ∨
        ∃ a b : Fin N, a ≠ b ∧ a.val ∈ prev ∧ b.val ∈ prev ∧ ∀ c d : Fin N, c ≠ d → m c d ≤ m a b) := by
  obtain ⟨hns, q, hq, hqd, hqm⟩ := pick_top hs hN draw hdraw
  simp only [pickPair, if_neg hns, hq]
  by_cases hb : q.1.val ∈ prev ∧ q.2.val ∈ prev
  · obtain ⟨i, hi⟩ := hnew
    obtain ⟨j, hj⟩ : ∃ j : Fin N, j ≠ i := by
      by_cases h0 : i.val = 0
      · exact ⟨⟨1, by omega⟩, by simp [Fin.ext_iff, h0]⟩
      · exact ⟨⟨0, by omega⟩, by simp [Fin.ext_iff]; omega⟩
    obtain ⟨q', pre, post, h1, h2, h3, h4⟩ := firstNotBoth_spec prev sorted
      ⟨(i, j), hs.complete _, fun h => hi h.1⟩
    have hdesc := hs.desc
    rw [h2, List.pairwise_append, List.pairwise_cons] at hdesc
    have key : ∀ a b : Fin N, a ≠ b → ¬ (a.val ∈ prev ∧ b.val ∈ prev) →
        q'.1 ≠ q'.2 ∧ m a b ≤ m q'.1 q'.2 := by
      intro a b hab hnb
      have hmem := hs.complete (a, b)
      rw [h2] at hmem
      rcases List.mem_append.1 hmem with h | h
      · exact absurd (h4 _ h) hnb
      · rcases List.mem_cons.1 h with h | h
        · rw [← h]; exact ⟨hab, le_rfl⟩
        · exact hdesc.2.1.1 _ h hab
    refine ⟨q', by simp [hb, h1], (key i j hj.symm (fun h => hi h.1)).1, h3, fun a b hab hnb => (key a b hab hnb).2,
      .inr ⟨q.1, q.2, hqd, hb.1, hb.2, hqm⟩⟩
  · exact ⟨q, by simp [hb], hqd, hb, fun a b hab _ => hqm a b hab, .inl hqm⟩

/-- With fewer than two candidates `pick_pair_from_metric` raises (`np.random.randint(0, 0)`). -/
theorem C49_too_few (m : Fin N → Fin N → K) (sorted : List (Fin N × Fin N)) (hN : N < 2)
    (draw : Nat → Nat) (prev : Finset Nat) : pickPair m sorted draw prev = .error .valueError := by
  have : numSameLoop m sorted N 0 0 = 0 := by
    match N, hN with
    | 0, _ => rfl
    | 1, _ => simp [numSameLoop]
  simp [pickPair, this]

/-- Instance of C49: metric 5 on (0,1), 7 on (1,2); both 1 and 2 were selected before. -/
example : pickPair (N := 3) (K := Int)
    (fun i j => if i.val + j.val = 3 then 7 else if i.val + j.val = 1 then 5 else 0)
    [(1, 2), (2, 1), (0, 1), (1, 0), (0, 2), (2, 0), (0, 0), (1, 1), (2, 2)] (fun _ => 1) {1, 2}
      = .ok (0, 1) := by
  decide +kernel

/-- The listing in the instance meets the hypothesis of C49. -/
example : SortedPairs (N := 3) (K := Int)
    (fun i j => if i.val + j.val = 3 then 7 else if i.val + j.val = 1 then 5 else 0)
    [(1, 2), (2, 1), (0, 1), (1, 0), (0, 2), (2, 0), (0, 0), (1, 1), (2, 2)] :=
  ⟨by decide +kernel, by decide +kernel, by decide +kernel⟩

/-- C49 as stated ("two different indices") is false when every candidate was selected before: whatever
the metric, a pair of twice the same candidate is returned. -/
theorem C49_all_previous_counterexample {m : Fin N → Fin N → K} {sorted : List (Fin N × Fin N)}
    (hs : SortedPairs m sorted) (hN : 2 ≤ N) (draw : Nat → Nat) (hdraw : ∀ k, 0 < k → draw k < k)
    (prev : Finset Nat) (hall : ∀ i : Fin N, i.val ∈ prev) :
    ∃ i, pickPair m sorted draw prev = .ok (i, i) := by
  obtain ⟨hns, q, hq, hqd, hqm⟩ := pick_top hs hN draw hdraw
  simp only [pickPair, if_neg hns, hq, hall, and_self, if_true]
  rw [firstNotBoth_all prev sorted (fun q _ => ⟨hall _, hall _⟩)]
  have hne : sorted ≠ [] := by
    intro h
    have := hs.complete (⟨0, by omega⟩, ⟨0, by omega⟩)
    simp [h] at this
  obtain ⟨pre, l, hl⟩ : ∃ pre l, sorted = pre ++ [l] :=
    ⟨sorted.dropLast, sorted.getLast hne, (List.dropLast_append_getLast hne).symm⟩
  have hd : l.1 = l.2 := by
    by_contra hld
    have h0 : ((⟨0, by omega⟩ : Fin N), (⟨0, by omega⟩ : Fin N)) ∈ sorted := hs.complete _
    have hdesc := hs.desc
    rw [hl, List.pairwise_append] at hdesc
    rw [hl] at h0
    rcases List.mem_append.1 h0 with h | h
    · exact (hdesc.2.2 _ h l (by simp) hld).1 rfl
    · simp only [List.mem_singleton] at h
      exact hld (by rw [← h])
  exact ⟨l.1, by rw [hl]; simp; exact Prod.ext rfl hd.symm⟩

end C49

section C46
variable {K : Type*} [LinearOrder K]

/-- C46, what holds: a learner whose first pair consists of two different unselected candidates, asked
for at least two points with enough candidates left, returns exactly that many different unselected
candidates. Missing: `num_alts = 1`, and pairs that are not fresh – refuted below. -/
theorem C46_size_partial (L : Learner) {mu : List K} (hL : PicksMember mu.length L)
    (alwaysBest pairFirst : Bool)
    {ord : Finset Nat → List Nat} (hord : Enumerates ord) (numAlts : Nat)
    (prefer prev : Finset Nat) (hpref : prefer ⊆ Finset.range mu.length)
    (hpair : PairFresh L mu.length prev (firstOffer mu.length prefer prev)) (hn : 2 ≤ numAlts)
    (hle : numAlts ≤ (Finset.range mu.length \ prev).card) :
    ∃ sel, learnerSelect L alwaysBest pairFirst none ord mu numAlts prefer prev = .ok sel ∧
      FreshChoice mu.length numAlts prev sel := by
  by_cases hno : L.pair = none ∨ pairFirst = false ∨ (alwaysBest = true ∧ prev = ∅)
  · obtain ⟨hok, -⟩ := learnerSelect_cases (P := fun _ _ => True) L alwaysBest pairFirst none hord
      mu numAlts prefer prev hno hpref (by simp only [effAlts]; omega)
      (by
        intro t S p hS hsub
        obtain ⟨i, hi, h⟩ := hL t S p hS hsub
        exact ⟨i, hi, h, trivial⟩)
    obtain ⟨sel, hsel, hlen, h1, h2⟩ := hok hle
    refine ⟨sel, hsel, ?_⟩
    have hv : ValidSelection mu.length sel.length prefer prev sel := by
      by_cases hab : alwaysBest = true ∧ prev = ∅
      · obtain ⟨b, r, rfl, hb, hr⟩ := h1 hab
        exact ChosenBy.valid (P := fun _ _ => True) hpref ⟨hb.1, trivial, hr⟩
      · exact (h2 hab).valid hpref
    exact ⟨hlen, hv.nodup, hv.fresh⟩
  · push Not at hno
    obtain ⟨hp, hpf, hab⟩ := hno
    obtain ⟨p, hp⟩ := Option.ne_none_iff_exists'.1 hp
    have hpf : pairFirst = true := by simpa using hpf
    subst hpf
    have hstart : startSelection alwaysBest ord mu prefer prev = .ok ([], prev) := by
      simp only [startSelection]
      rw [if_neg]
      rintro ⟨h1, h2⟩
      exact (hab h1).ne_empty h2
    have hpa : prefer \ prev ⊆ Finset.range mu.length \ prev :=
      Finset.sdiff_subset_sdiff hpref (Finset.Subset.refl _)
    have key : ∃ a b pref' alln', a ≠ b ∧ a ∈ Finset.range mu.length \ prev ∧
        b ∈ Finset.range mu.length \ prev ∧
        pref' = (prefer \ prev) \ [a, b].toFinset ∧
        (alln' = none ∨ pref' = ∅ ∧ alln' = some ((Finset.range mu.length \ prev) \ [a, b].toFinset)) ∧
        learnerSelect L alwaysBest true none ord mu numAlts prefer prev =
          selectLoop L true mu.length numAlts prev (numAlts - 1) 1 [a, b] pref' alln' := by
      obtain ⟨k, rfl⟩ : ∃ k, numAlts = k + 1 := ⟨numAlts - 1, by omega⟩
      by_cases hpe : prefer \ prev = ∅
      · obtain ⟨a, b, hab', hne, haN, hbN, hap, hbp⟩ := hpair p hp
        rw [firstOffer, if_pos hpe] at hab'
        have ha : a ∈ Finset.range mu.length \ prev := by simp [haN, hap]
        have hb : b ∈ Finset.range mu.length \ prev := by simp [hbN, hbp]
        have hrest : (Finset.range mu.length \ prev) ≠ ∅ := by
          intro h; rw [h] at ha; simp at ha
        refine ⟨a, b, ∅, some (((Finset.range mu.length \ prev).erase a).erase b), hne, ha, hb,
          by simp [hpe], .inr ⟨rfl, ?_⟩, ?_⟩
        · congr 1
          ext x; simp; tauto
        · simp only [learnerSelect, hstart, effAlts, selectLoop, hpe, hp]
          simp [hrest, hab', haN, hbN, hap, hbp, hne.symm, hp]
      · obtain ⟨a, b, hab', hne, haN, hbN, hap, hbp⟩ := hpair p hp
        rw [firstOffer, if_neg hpe] at hab'
        refine ⟨a, b, ((prefer \ prev).erase a).erase b, none, hne, by simp [haN, hap],
          by simp [hbN, hbp], ?_, .inl rfl, ?_⟩
        · ext x; simp; tauto
        · simp only [learnerSelect, hstart, effAlts, selectLoop, hp]
          simp [hpe, hab', hp]
    obtain ⟨a, b, pref', alln', hne, ha, hb, h1, h2, h3⟩ := key
    rw [h3, selectLoop_eq_greedyRun L true mu.length numAlts prev (prefer \ prev) _ _ _ _ _
      (.inr (.inr (by simp))) h1 h2 (by simp; omega)]
    have hcard : ((Finset.range mu.length \ prev) \ [a, b].toFinset).card + 2 =
        (Finset.range mu.length \ prev).card := by
      have : (Finset.range mu.length \ prev) \ [a, b].toFinset =
          ((Finset.range mu.length \ prev).erase a).erase b := by
        ext x; simp; tauto
      rw [this, Finset.card_erase_of_mem (Finset.mem_erase.2 ⟨hne.symm, hb⟩),
        Finset.card_erase_of_mem ha]
      omega
    obtain ⟨r, hr, hlen, hc⟩ := greedyRun_ok (P := fun _ _ => True) (g := L.greedy) (prev := prev) hpa
      (by
        intro t S p hS hsub
        obtain ⟨i, hi, h⟩ := hL t S p hS (hsub.trans Finset.sdiff_subset)
        exact ⟨i, hi, h, trivial⟩) (numAlts - [a, b].length) 1 [a, b] (by
        simp only [List.length_cons, List.length_nil]; omega)
    refine ⟨_, hr, ?_⟩
    have hfr := hc.fresh hpa
    refine ⟨by simp [hlen]; omega, ?_, ?_⟩
    · rw [List.nodup_append]
      refine ⟨by simp [hne], hc.nodup hpa, ?_⟩
      intro x hx y hy hxy
      subst hxy
      exact (hfr x hy).2 hx
    · intro i hi
      rcases List.mem_append.1 hi with h | h
      · simp only [List.mem_cons, List.not_mem_nil, or_false] at h
        rcases h with rfl | rfl
        · simpa using ha
        · simpa using hb
      · simpa using (hfr i h).1

/-- C46 for the metric-based learners (`AcquisitionSelection`, `BayesInfoGain` with data) when nothing
was selected before: for every metric, tie order and draw. -/
theorem C46_metric_partial (greedy : Nat → Finset Nat → Finset Nat → Except PyErr Nat)
    (mu : List K) (hgreedy : ∀ t idx prev, idx.Nonempty → idx ⊆ Finset.range mu.length →
      ∃ i ∈ idx, greedy t idx prev = .ok i) (m : Nat → Fin mu.length → Fin mu.length → K)
    (sorted : Nat → List (Fin mu.length × Fin mu.length)) (hs : ∀ t, SortedPairs (m t) (sorted t))
    (draw : Nat → Nat → Nat) (hdraw : ∀ t k, 0 < k → draw t k < k) (alwaysBest pairFirst : Bool)
    {ord : Finset Nat → List Nat} (hord : Enumerates ord) (numAlts : Nat)
    (prefer : Finset Nat) (hpref : prefer ⊆ Finset.range mu.length) (hn : 2 ≤ numAlts)
    (hle : numAlts ≤ mu.length) :
    ∃ sel, learnerSelect (metricLearner greedy m sorted draw) alwaysBest pairFirst none ord mu numAlts
        prefer ∅ = .ok sel ∧ FreshChoice mu.length numAlts ∅ sel := by
  refine C46_size_partial (metricLearner greedy m sorted draw) (mu := mu) hgreedy alwaysBest pairFirst hord numAlts prefer ∅ hpref ?_ hn (by simpa using hle)
  intro p hp
  simp only [metricLearner, Option.some.injEq] at hp
  subst hp
  obtain ⟨q, hq, hne, -⟩ := C49_pick_pair (hs 0) (by omega) (draw 0) (hdraw 0) ∅ ⟨⟨0, by omega⟩, by simp⟩
  refine ⟨q.1.val, q.2.val, by simp [hq], fun h => hne (Fin.ext h), q.1.2, q.2.2, by simp, by simp⟩

/-- Instance of C46: the best pair (0, 1), then the greedy choice 2. -/
example : learnerSelect (K := Int) (metricLearner (N := 3) (K := Int) (fun _ idx _ => .ok ((sortedList idx).headD 0))
      (fun _ i j => if i.val + j.val = 1 then 5 else 0)
      (fun _ => [(0, 1), (1, 0), (0, 2), (2, 0), (1, 2), (2, 1), (0, 0), (1, 1), (2, 2)])
      (fun _ _ => 0)) false true none sortedList [0, 0, 0] 3 {0, 1, 2} ∅ = .ok [0, 1, 2] := by
  decide +kernel

/-- C46 as stated is false: asked for one point, a pair-based learner returns two. -/
theorem C46_one_point_counterexample :
    learnerSelect (K := Int) (metricLearner (N := 3) (K := Int) (fun _ _ _ => .error .exception)
      (fun _ i j => if i.val + j.val = 1 then 5 else 0)
      (fun _ => [(0, 1), (1, 0), (0, 2), (2, 0), (1, 2), (2, 1), (0, 0), (1, 1), (2, 2)])
      (fun _ _ => 0)) false true none sortedList [0, 0, 0] 1 {0, 1, 2} ∅ = .ok [0, 1] := by
  decide +kernel

/-- C46 as stated is false: a previously selected candidate is selected again when it belongs to the
best pair. -/
theorem C46_previous_counterexample :
    learnerSelect (K := Int) (metricLearner (N := 3) (K := Int) (fun _ _ _ => .error .exception)
      (fun _ i j => if i.val + j.val = 1 then 5 else 0)
      (fun _ => [(0, 1), (1, 0), (0, 2), (2, 0), (1, 2), (2, 1), (0, 0), (1, 1), (2, 2)])
      (fun _ _ => 0)) false true none sortedList [0, 0, 0] 2 {0, 1, 2} {0} = .ok [0, 1] := by
  decide +kernel

/-- C46 as stated is false: the same situation raises `KeyError` when no preferred candidate is left. -/
theorem C46_key_error_counterexample :
    learnerSelect (K := Int) (metricLearner (N := 3) (K := Int) (fun _ _ _ => .error .exception)
      (fun _ i j => if i.val + j.val = 1 then 5 else 0)
      (fun _ => [(0, 1), (1, 0), (0, 2), (2, 0), (1, 2), (2, 1), (0, 0), (1, 1), (2, 2)])
      (fun _ _ => 0)) false true none sortedList [0, 0, 0] 2 {0} {0} = .error .keyError := by
  decide +kernel

/-- C46 as stated is false: `BayesInfoGain` without data may draw the same candidate twice. -/
theorem C46_no_data_counterexample :
    learnerSelect (K := Int) (noDataLearner (fun _ _ _ => .error .exception) true
      (fun _ _ => (1, 1))) false true none sortedList [0, 0, 0] 2 {0, 1, 2} ∅ = .ok [1, 1] := by
  decide +kernel

/-- C46 as stated is false: `AcquisitionSelection` without data and with a single preferred candidate
raises although enough candidates are left (whatever the draws). -/
theorem C46_single_preferred_counterexample (draw : Nat → Finset Nat → Nat × Nat) :
    learnerSelect (K := Int) (noDataLearner (fun _ _ _ => .error .exception) false draw)
      false true none sortedList [0, 0, 0] 2 {0} ∅ = .error .valueError := by
  rfl

/-- C46 for the learners without data when nothing was selected before: `AcquisitionSelection` (pairs
drawn without replacement) with at least two candidates offered first, for every valid draw. -/
theorem C46_no_data_partial (greedy : Nat → Finset Nat → Finset Nat → Except PyErr Nat)
    (mu : List K) (hgreedy : ∀ t idx prev, idx.Nonempty → idx ⊆ Finset.range mu.length →
      ∃ i ∈ idx, greedy t idx prev = .ok i) (draw : Nat → Finset Nat → Nat × Nat)
    (hdraw : ∀ t idx, 2 ≤ idx.card → (draw t idx).1 ∈ idx ∧ (draw t idx).2 ∈ idx ∧
      (draw t idx).1 ≠ (draw t idx).2) (alwaysBest pairFirst : Bool)
    {ord : Finset Nat → List Nat} (hord : Enumerates ord) (numAlts : Nat)
    (prefer : Finset Nat) (hpref : prefer ⊆ Finset.range mu.length) (h2 : prefer = ∅ ∨ 2 ≤ prefer.card)
    (hn : 2 ≤ numAlts) (hle : numAlts ≤ mu.length) :
    ∃ sel, learnerSelect (noDataLearner greedy false draw) alwaysBest pairFirst none ord mu numAlts
        prefer ∅ = .ok sel ∧ FreshChoice mu.length numAlts ∅ sel := by
  refine C46_size_partial (noDataLearner greedy false draw) (mu := mu) hgreedy alwaysBest pairFirst hord
    numAlts prefer ∅ hpref ?_ hn (by simpa using hle)
  intro p hp
  simp only [noDataLearner, Option.some.injEq] at hp
  subst hp
  have hsub : firstOffer mu.length prefer ∅ ⊆ Finset.range mu.length := by
    unfold firstOffer; split
    · exact Finset.sdiff_subset
    · exact Finset.sdiff_subset.trans hpref
  have hcard : 2 ≤ (firstOffer mu.length prefer ∅).card := by
    unfold firstOffer; split
    · simp; omega
    · rename_i h; simp at h ⊢; exact h2.resolve_left h
  obtain ⟨h3, h4, h5⟩ := hdraw 0 _ hcard
  have hne : firstOffer mu.length prefer ∅ ≠ ∅ := by
    intro h; rw [h] at hcard; simp at hcard
  refine ⟨_, _, by simp only [hne, true_and, false_or, not_lt.2 hcard, if_false], h5,
    Finset.mem_range.1 (hsub h3), Finset.mem_range.1 (hsub h4), by simp, by simp⟩

/-- Instance: the pair of the extreme indices is drawn, then the first of the rest. -/
example : learnerSelect (K := Int) (noDataLearner (fun _ idx _ => .ok ((sortedList idx).headD 0)) false
      (fun _ idx => ((sortedList idx).headD 0, (sortedList idx).getLastD 0))) false true none sortedList
      [0, 0, 0, 0] 3 {1, 3} ∅ = .ok [1, 3, 0] := by
  decide +kernel

/-- C46, asked for one point: every pair-based learner whose first pair is fresh returns two points, in
every state in which the best candidate is not placed first. -/
theorem C46_one_point (L : Learner) (hp : L.pair ≠ none) (alwaysBest : Bool) (ord : Finset Nat → List Nat)
    (mu : List K) (prefer prev : Finset Nat) (hab : alwaysBest = false ∨ prev ≠ ∅)
    (hpair : PairFresh L mu.length prev (firstOffer mu.length prefer prev)) :
    ∃ sel, learnerSelect L alwaysBest true none ord mu 1 prefer prev = .ok sel ∧
      FreshChoice mu.length 2 prev sel := by
  obtain ⟨p, hp⟩ := Option.ne_none_iff_exists'.1 hp
  have hab' : ¬ (alwaysBest = true ∧ prev = ∅) := by
    rintro ⟨h1, h2⟩; rcases hab with h | h <;> simp_all
  obtain ⟨a, b, hab2, hne, haN, hbN, hap, hbp⟩ := hpair p hp
  refine ⟨[a, b], ?_, by simp, by simp [hne], by simp [haN, hbN, hap, hbp]⟩
  by_cases hpe : prefer \ prev = ∅
  · rw [firstOffer, if_pos hpe] at hab2
    have ha : a ∈ Finset.range mu.length \ prev := by simp [haN, hap]
    have hrest : Finset.range mu.length \ prev ≠ ∅ := Finset.ne_empty_of_mem ha
    simp only [learnerSelect, startSelection, if_neg hab', effAlts, selectLoop, hpe, hp]
    simp [hrest, hab2, haN, hbN, hap, hbp, hne.symm]
  · rw [firstOffer, if_neg hpe] at hab2
    simp only [learnerSelect, startSelection, if_neg hab', effAlts, selectLoop, hp]
    simp [hpe, hab2]

/-- C46, pairs that are not fresh: if the first pair contains a candidate selected before, then asking
for one or two points returns that pair when unselected preferred candidates are left, and raises
`KeyError` (whatever number is asked for) when there are none. -/
theorem C46_stale_pair (L : Learner) {p : Nat → Finset Nat → Finset Nat → Except PyErr (Nat × Nat)}
    (hp : L.pair = some p) (alwaysBest : Bool) (ord : Finset Nat → List Nat) (mu : List K)
    (numAlts : Nat) (hn : 0 < numAlts) (prefer prev : Finset Nat) (hprev : alwaysBest = false ∨ prev ≠ ∅)
    {a b : Nat} (hpick : p 0 (firstOffer mu.length prefer prev) prev = .ok (a, b))
    (hold : a ∈ prev ∨ b ∈ prev) :
    (prefer \ prev ≠ ∅ → numAlts ≤ 2 →
      learnerSelect L alwaysBest true none ord mu numAlts prefer prev = .ok [a, b]) ∧
    (prefer \ prev = ∅ → Finset.range mu.length \ prev ≠ ∅ →
      learnerSelect L alwaysBest true none ord mu numAlts prefer prev = .error .keyError) := by
  have hab' : ¬ (alwaysBest = true ∧ prev = ∅) := by
    rintro ⟨h1, h2⟩; rcases hprev with h | h <;> simp_all
  obtain ⟨k, rfl⟩ : ∃ k, numAlts = k + 1 := ⟨numAlts - 1, by omega⟩
  refine ⟨fun hpe h2 => ?_, fun hpe hrest => ?_⟩
  · rw [firstOffer, if_neg hpe] at hpick
    have hk : ¬ (2 < k + 1) := by omega
    simp only [learnerSelect, startSelection, if_neg hab', effAlts, selectLoop, hp]
    cases k with
    | zero => simp [hpe, hpick, selectLoop]
    | succ k => simp [hpe, hpick, selectLoop]; omega
  · rw [firstOffer, if_pos hpe] at hpick
    simp only [learnerSelect, startSelection, if_neg hab', effAlts, selectLoop, hpe, hp]
    have : ¬ (a ∈ Finset.range mu.length \ prev ∧ b ∈ (Finset.range mu.length \ prev).erase a) := by
      rintro ⟨h1, h2⟩
      rcases hold with h | h
      · exact (Finset.mem_sdiff.1 h1).2 h
      · exact (Finset.mem_sdiff.1 (Finset.mem_of_mem_erase h2)).2 h
    simp only [List.length_nil, Nat.succ_pos, if_true, ne_eq, not_true_eq_false, if_false, and_self,
      Option.getD_none, List.toFinset_nil, Finset.sdiff_empty, hrest, Finset.union_empty, hpick, this]

/-- C46, what holds without data: with at least two preferred candidates the first request for two returns the pair drawn among them;
without replacement two are enough, and with replacement one is. -/
theorem C46_no_data_pair (greedy : Nat → Finset Nat → Finset Nat → Except PyErr Nat) (replace : Bool)
    (draw : Nat → Finset Nat → Nat × Nat) (ord : Finset Nat → List Nat) (mu : List K) (prefer : Finset Nat)
    (hp : 2 ≤ prefer.card ∨ replace = true ∧ prefer ≠ ∅) :
    learnerSelect (noDataLearner greedy replace draw) false true none ord mu 2 prefer ∅ =
      .ok [(draw 0 prefer).1, (draw 0 prefer).2] := by
  have h0 : prefer ≠ ∅ := by
    rcases hp with h | h
    · rintro rfl
      simp at h
    · exact h.2
  have h1 : ¬ (prefer = ∅ ∨ (replace = false ∧ prefer.card < 2)) := by
    rintro (h | ⟨h, h'⟩)
    · exact h0 h
    · rcases hp with hp | hp
      · omega
      · rw [hp.1] at h
        cases h
  have h2 : ¬ (replace = false ∧ prefer.card ≤ 1) := fun ⟨h, h'⟩ => h1 (.inr ⟨h, by omega⟩)
  simp [learnerSelect, effAlts, startSelection, selectLoop, noDataLearner, h0, h2]

/-- Exactly two preferred candidates. -/
example : learnerSelect (K := Int) (noDataLearner (fun _ _ _ => .error .exception) false
      (fun _ _ => (2, 0))) false true none sortedList [0, 0, 0] 2 {0, 2} ∅ = .ok [2, 0] := by
  decide +kernel

/-- With `return_not_selected`, a pair-based learner whose best pair is not preferred never returns:
every pass skips the same pair again. -/
theorem C46_never_returns (fuel : Nat) :
    learnerSelectRet (K := Int) (metricLearner (N := 3) (K := Int) (fun _ _ _ => .error .exception)
      (fun _ i j => if i.val + j.val = 1 then 5 else 0)
      (fun _ => [(0, 1), (1, 0), (0, 2), (2, 0), (1, 2), (2, 1), (0, 0), (1, 1), (2, 2)])
      (fun _ _ => 0)) false true none sortedList [0, 0, 0] 2 {2} ∅ fuel = none := by
  set L := metricLearner (N := 3) (K := Int) (fun _ _ _ => .error .exception)
      (fun _ i j => if i.val + j.val = 1 then 5 else 0)
      (fun _ => [(0, 1), (1, 0), (0, 2), (2, 0), (1, 2), (2, 1), (0, 0), (1, 1), (2, 2)])
      (fun _ _ => 0) with hL
  have hpair : ∀ t idx, L.pair.map (fun p => p t idx ∅) = some (.ok (0, 1)) := by
    intro t idx; rw [hL]; rfl
  have hloop : ∀ fuel t ns A, 2 ∈ A → retLoop L true 2 ∅ fuel t ⟨[], ns, {2}, A⟩ = none := by
    intro fuel
    induction fuel with
    | zero => intros; rfl
    | succ fuel ih =>
      intro t ns A hA
      have hA' : A ≠ ∅ := by rintro rfl; simp at hA
      have hstep : retStep L true 2 ∅ t ⟨[], ns, {2}, A⟩ =
          .ok ⟨[], ns ++ [1] ++ [0], {2}, (A.erase 1).erase 0⟩ := by
        have hp := hpair t {2}
        cases hq : L.pair with
        | none => rw [hq] at hp; simp at hp
        | some p =>
          rw [hq] at hp
          simp only [Option.map_some, Option.some.injEq] at hp
          simp [retStep, hq, hp, retPlace]
      simp only [retLoop, hstep]
      simp only [List.length_nil, Nat.ofNat_pos, ne_eq, hA', not_false_eq_true, and_self, if_true]
      exact ih _ _ _ (by simp [hA])
  simp only [learnerSelectRet, startSelection, effAlts]
  exact hloop fuel 0 [] _ (by simp)

end C46

end Lop.Props
