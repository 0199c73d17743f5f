import Verif.Proofs.Study

/-! # C96: the accuracies of the study -/

namespace Lop.Props

open Spec

variable {d : Nat} {α : Type*} [LinearOrder α] {R : Type*} [Field R] [LinearOrder R]

/-- One value per point, and every question shows a path. -/
def WellShown (value : StudyValue d α R) (r : StudyRun d α) : Prop :=
  (∀ D X, (value D X).length = X.length) ∧ r.evals ≠ [] ∧ ∀ s ∈ r.evals, s.rewards ≠ []

theorem wellShown_ne {value : StudyValue d α R} {r : StudyRun d α} (h : WellShown value r) :
    ∀ D, ∀ s ∈ r.evals, value D s.rewards ≠ [] := by
  intro D s hs he
  have := h.1 D s.rewards
  rw [he] at this
  exact h.2.2 s hs (List.length_eq_zero_iff.1 this.symm)

/-- C96 (rows): the entry of participant `i` after `k` choices is the fraction of that participant's evaluation choices
predicted by a fresh model that was given these `k` choices and nothing else. -/
theorem C96_rows (value : StudyValue d α R) (pareto : Bool) (runs : List (StudyRun d α)) (m : Nat) (hne : runs ≠ [])
    (hshow : ∀ r ∈ runs, WellShown value r) (hlen : ∀ r ∈ runs, r.train.length = m) :
    processAllData value pareto {} runs = .ok (runs.map fun r => (List.range (m + 1)).map fun k =>
      studyAccuracy value pareto (r.train.take k) r.evals) := by
  cases runs with
  | nil => exact absurd rfl hne
  | cons r rest =>
    rw [processAllData, hlen r (by simp)]
    exact processLoop_eq value pareto m (r :: rest) (fun r hr => (hshow r hr).2.1)
      (fun r hr => wellShown_ne (hshow r hr)) hlen {} rfl rfl

/-- C96 (range): every accuracy lies between 0 and 1. -/
theorem C96_range (value : StudyValue d α R) (pareto : Bool) (runs : List (StudyRun d α)) (m : Nat) (hne : runs ≠ [])
    (hshow : ∀ r ∈ runs, WellShown value r) (hlen : ∀ r ∈ runs, r.train.length = m) :
    ∃ acc, processAllData value pareto {} runs = .ok acc ∧ acc.length = runs.length ∧
      ∀ row ∈ acc, row.length = m + 1 ∧ ∀ a ∈ row, 0 ≤ a ∧ a ≤ 1 := by
  refine ⟨_, C96_rows value pareto runs m hne hshow hlen, by simp, ?_⟩
  intro row hrow
  obtain ⟨r, hr, rfl⟩ := List.mem_map.1 hrow
  refine ⟨by simp, ?_⟩
  intro a ha
  obtain ⟨k, -, rfl⟩ := List.mem_map.1 ha
  have hpos : (0 : ℝ) < r.evals.length := by exact_mod_cast List.length_pos_of_ne_nil (hshow r hr).2.1
  unfold studyAccuracy
  refine ⟨by positivity, ?_⟩
  rw [div_le_one hpos]
  exact_mod_cast List.countP_le_length

/-- C96 (order of the files): reading the files in another order changes no mean and no deviation. -/
theorem C96_order (value : StudyValue d α R) (pareto : Bool) (runs runs' : List (StudyRun d α)) (m : Nat) (hne : runs ≠ [])
    (hshow : ∀ r ∈ runs, WellShown value r) (hlen : ∀ r ∈ runs, r.train.length = m) (hperm : runs.Perm runs') :
    ∃ acc acc', processAllData value pareto {} runs = .ok acc ∧ processAllData value pareto {} runs' = .ok acc' ∧
      ∀ j, npMean (column acc j) = npMean (column acc' j) ∧ npStd (column acc j) = npStd (column acc' j) := by
  refine ⟨_, _, C96_rows value pareto runs m hne hshow hlen, C96_rows value pareto runs' m ?_
    (fun r hr => hshow r (hperm.mem_iff.2 hr)) (fun r hr => hlen r (hperm.mem_iff.2 hr)), fun j => ?_⟩
  · rintro rfl
    exact hne hperm.eq_nil
  · have hp := (hperm.map fun r => (List.range (m + 1)).map fun k =>
      studyAccuracy value pareto (r.train.take k) r.evals).map fun row => row.getD j 0
    exact ⟨npMean_perm hp, npStd_perm hp⟩

open Classical in
/-- C96 (the sum): the rewards' sum as a model has the same accuracy after every choice, the fraction of the choices
whose preferred path has the largest sum. -/
theorem C96_sum (pareto : Bool) (runs : List (StudyRun d ℝ)) (m : Nat) (hne : runs ≠ [])
    (hshow : ∀ r ∈ runs, r.evals ≠ [] ∧ ∀ s ∈ r.evals, s.rewards ≠ []) (hlen : ∀ r ∈ runs, r.train.length = m) :
    processAllData (simplestValue d R) pareto {} runs = .ok (runs.map fun r => List.replicate (m + 1)
      ((r.evals.countP fun s => FirstLargest (s.rewards.map fun x => ∑ k, x k) s.best : Nat) / r.evals.length)) := by
  rw [C96_rows (simplestValue d R) pareto runs m hne (fun r hr => ⟨fun D X => by simp [simplestValue], hshow r hr⟩) hlen]
  congr 1
  refine List.map_congr_left fun r _ => ?_
  rw [List.eq_replicate_iff]
  refine ⟨by simp, ?_⟩
  intro a ha
  obtain ⟨k, -, rfl⟩ := List.mem_map.1 ha
  rfl

/-- C96 (before the first choice): a model that predicts the same value for all points without data, as the GP does, is
right exactly where the preferred path is the first one shown. -/
theorem C96_untrained (value : StudyValue d α R) (pareto : Bool) (ev : List (StudySample d α))
    (hne : ∀ s ∈ ev, s.rewards ≠ []) (h0 : ∀ X, value none X = List.replicate X.length 0) :
    studyAccuracy value pareto [] ev = (ev.countP fun s => s.best = 0 : Nat) / ev.length := by
  simp only [studyAccuracy]
  congr 2
  refine List.countP_congr fun s hs => ?_
  have hD : (choicesData pareto ([] : List (StudySample d α)) : ModelState d α R).X = none := rfl
  simp only [hD, Option.map_none, h0, decide_eq_true_eq]
  obtain ⟨x, xs, hx⟩ := List.exists_cons_of_ne_nil (hne s hs)
  have hm : ∀ a ∈ List.replicate s.rewards.length (0 : ℝ), a = 0 := fun a ha => (List.mem_replicate.1 ha).2
  constructor
  · rintro ⟨m, h1, -, h3⟩
    by_contra hb
    have hm0 := hm m (List.mem_of_getElem? h1)
    have := h3 0 0 (Nat.pos_of_ne_zero hb) (by simp [hx])
    rw [hm0] at this
    exact lt_irrefl _ this
  · intro hb
    rw [hb]
    exact ⟨0, by simp [hx], fun a ha => (hm a ha).le, fun j a hj => absurd hj (Nat.not_lt_zero j)⟩

/-- C96 (refused data): without files, with a participant without evaluation choices, or with a participant whose number
of training choices is neither that of the first nor 0, an exception is raised; the accuracy of one without training
choices is repeated. -/
theorem C96_refused (value : StudyValue d α R) (pareto : Bool) (runs rest : List (StudyRun d α)) (r : StudyRun d α)
    (m : Nat) (hne : runs ≠ []) (hshow : ∀ r ∈ runs, WellShown value r) (hlen : ∀ r ∈ runs, r.train.length = m) :
    processAllData value pareto {} ([] : List (StudyRun d α)) = .error .indexError ∧
    (r.evals = [] → processAllData value pareto {} (runs ++ r :: rest) = .error .zeroDivision) ∧
    (WellShown value r → r.train.length ≠ m → r.train.length ≠ 0 →
      processAllData value pareto {} (runs ++ r :: rest) = .error .valueError) ∧
    (WellShown value r → r.train = [] → processAllData value pareto {} (runs ++ [r]) =
      .ok ((runs.map fun r => (List.range (m + 1)).map fun k =>
        studyAccuracy value pareto (r.train.take k) r.evals) ++
        [List.replicate (m + 1) (studyAccuracy value pareto [] r.evals)])) := by
  have hall : ∀ l, processAllData value pareto {} (runs ++ l) = processLoop value pareto (m + 1) {} (runs ++ l) := by
    intro l
    obtain ⟨r0, rs, rfl⟩ := List.exists_cons_of_ne_nil hne
    rw [List.cons_append, processAllData, hlen r0 (by simp)]
  have happ := fun l => processLoop_append value pareto m runs l (fun r hr => (hshow r hr).2.1)
      (fun r hr => wellShown_ne (hshow r hr)) hlen {} rfl rfl
  refine ⟨rfl, ?_, ?_, ?_⟩
  · intro he
    obtain ⟨st', -, -, h⟩ := happ (r :: rest)
    rw [hall, h]
    simp [processLoop, trainEval, studyEvalModel, studyEvalLoop, he, Except.map]
  · intro hr hm h0
    obtain ⟨st', hX, hy, h⟩ := happ (r :: rest)
    rw [hall, h]
    obtain ⟨st1, he⟩ := trainEval_eq value pareto r hr.2.1 (wellShown_ne hr) st' (inSync_fresh pareto st' hX hy)
    simp only [processLoop, he]
    rw [storeRow_other (by simpa using hm) (by simpa using h0)]
    rfl
  · intro hr h0
    obtain ⟨st', hX, hy, h⟩ := happ [r]
    rw [hall, h]
    obtain ⟨st1, he⟩ := trainEval_eq value pareto r hr.2.1 (wellShown_ne hr) st' (inSync_fresh pareto st' hX hy)
    simp only [processLoop, he]
    rw [h0]
    rfl

/-- C96 (figure): with six columns the curves are the means; the bands of the linear model and of the sum are the standard
errors of their own accuracies, that of the GP is the deviation of the linear model over the root of the number of
rows. With another number of columns nothing is drawn. -/
theorem C96_figure (accL accGp accS : List (List ℝ)) (cols : Nat) :
    (cols = 6 → ∃ l g s, studyFigure accL accGp accS cols = .ok (l, g, s) ∧
      (∀ j, j < 6 → l[j]? = some (npMean (column accL j), npStd (column accL j) / Real.sqrt accL.length) ∧
        g[j]? = some (npMean (column accGp j), npStd (column accL j) / Real.sqrt accGp.length) ∧
        s[j]? = some (npMean (column accS j), npStd (column accS j) / Real.sqrt accS.length))) ∧
    (cols ≠ 6 → studyFigure accL accGp accS cols = .error .valueError) := by
  constructor
  · rintro rfl
    refine ⟨_, _, _, by rw [studyFigure, if_pos rfl], fun j hj => ?_⟩
    simp [studyCurve, hj]
  · intro h
    rw [studyFigure, if_neg h]

/-- C96 (band of the GP), refuted: accuracies of the GP that differ between participants, drawn with a band of width 0. -/
theorem C96_band_false : ∃ accL accGp accS : List (List ℝ), accL.length = 2 ∧ accGp.length = 2 ∧ accS.length = 2 ∧
    (∀ row ∈ accL ++ accGp ++ accS, row.length = 6 ∧ ∀ a ∈ row, 0 ≤ a ∧ a ≤ 1) ∧
    ∃ l g s, studyFigure accL accGp accS 6 = .ok (l, g, s) ∧ g[0]? = some (1 / 2, 0) ∧
      npStd (column accGp 0) = 1 / 2 := by
  refine ⟨[List.replicate 6 0, List.replicate 6 0], [List.replicate 6 0, List.replicate 6 1],
    [List.replicate 6 0, List.replicate 6 0], rfl, rfl, rfl, ?_, ?_⟩
  · intro row hrow
    simp only [List.cons_append, List.nil_append, List.mem_cons, List.not_mem_nil, or_false] at hrow
    rcases hrow with rfl | rfl | rfl | rfl | rfl | rfl <;> refine ⟨rfl, fun a ha => ?_⟩ <;>
      rw [(List.mem_replicate.1 ha).2] <;> norm_num
  · obtain ⟨l, g, s, h, hj⟩ := (C96_figure [List.replicate 6 0, List.replicate 6 0]
      [List.replicate 6 0, List.replicate 6 1] [List.replicate 6 0, List.replicate 6 0] 6).1 rfl
    refine ⟨l, g, s, h, ?_, ?_⟩
    · rw [(hj 0 (by norm_num)).2.1]
      norm_num [npMean, npStd, column, List.replicate]
    · norm_num [npMean, npStd, column, List.replicate]
      rw [show (4 : ℝ) = 2 ^ 2 by norm_num, Real.sqrt_sq (by norm_num)]
      norm_num

/-- The hypotheses can be met: two participants with one training choice each. -/
example : ∃ runs : List (StudyRun 1 ℝ), runs ≠ [] ∧ (∀ r ∈ runs, r.train.length = 1) ∧
    ∀ r ∈ runs, WellShown (simplestValue 1 ℝ) r := by
  refine ⟨[⟨[⟨[fun _ => 1, fun _ => 2], 1⟩], [⟨[fun _ => 1, fun _ => 0], 0⟩]⟩,
    ⟨[⟨[fun _ => 3], 0⟩], [⟨[fun _ => 1], 0⟩]⟩], by simp, by simp, ?_⟩
  intro r hr
  refine ⟨fun D X => by simp [simplestValue], ?_⟩
  simp only [List.mem_cons, List.not_mem_nil, or_false] at hr
  rcases hr with rfl | rfl <;> simp

end Lop.Props
