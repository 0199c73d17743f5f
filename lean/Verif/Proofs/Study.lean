import Verif.Spec.Study
import Verif.Proofs.Basic

/-! # The evaluation of the study -/

namespace Lop

open Spec

variable {d : Nat} {α : Type*} [LinearOrder α] {R : Type*} [Field R] [LinearOrder R]

/-- `st` holds the data of `D`, and what it is fitted to, if anything, is this data. -/
def InSync (D st : ModelState d α R) : Prop :=
  st.X = D.X ∧ st.y = D.y ∧ ∀ X, st.X = some X → st.optimized = true → st.fitted = some (X, st.y)

theorem inSync_predict {D st : ModelState d α R} (h : InSync D st) :
    InSync D (modelPredict st).1 ∧ (modelPredict st).2.join = D.X.map fun X => (X, D.y) := by
  obtain ⟨h1, h2, h3⟩ := h
  cases hX : st.X with
  | none =>
    have e : modelPredict st = (st, none) := by simp only [modelPredict, hX]
    rw [e]
    refine ⟨⟨h1, h2, h3⟩, ?_⟩
    rw [← h1, hX]
    rfl
  | some X =>
    by_cases ho : st.optimized = true
    · have e : modelPredict st = (st, some st.fitted) := by simp only [modelPredict, hX, ho, if_true]
      rw [e]
      refine ⟨⟨h1, h2, h3⟩, ?_⟩
      rw [← h1, ← h2, hX]
      exact h3 X hX ho
    · have e : modelPredict st = ({ st with fitted := some (X, st.y), optimized := true }, some (some (X, st.y))) := by
        simp only [modelPredict, modelOptimize, hX, ho]
        rfl
      rw [e]
      refine ⟨⟨h1, h2, ?_⟩, ?_⟩
      · intro X' hX' _
        simp only at hX' ⊢
        rw [hX] at hX'
        rw [Option.some.inj hX']
      · rw [← h1, ← h2, hX]
        rfl

theorem modelAdd_pairs (pareto : Bool) (st : ModelState d α R) (X : List (Fin d → α)) (ps : List Pair) :
    (modelAdd pareto st X (.pairs ps)).2 = none ∧ (modelAdd pareto st X (.pairs ps)).1.optimized = false := by
  have : ∃ y, addLabels (R := R) st.y (st.X.getD []).length (.pairs ps) = .ok (some y) := by
    simp only [addLabels]
    split_ifs <;> exact ⟨_, rfl⟩
  obtain ⟨y, hy⟩ := this
  simp only [modelAdd, hy]
  exact ⟨trivial, trivial⟩

theorem modelAdd_data (pareto : Bool) {D st : ModelState d α R} (h1 : st.X = D.X) (h2 : st.y = D.y)
    (X : List (Fin d → α)) (inp : AddInput R) :
    (modelAdd pareto st X inp).1.X = (modelAdd pareto D X inp).1.X ∧
    (modelAdd pareto st X inp).1.y = (modelAdd pareto D X inp).1.y := by
  simp only [modelAdd, h1, h2]
  cases addLabels D.y (D.X.getD []).length inp with
  | error e => exact ⟨rfl, rfl⟩
  | ok o => cases o with
    | none => exact ⟨rfl, rfl⟩
    | some y => exact ⟨rfl, rfl⟩

theorem inSync_add (pareto : Bool) {D st : ModelState d α R} (h : InSync D st) (X : List (Fin d → α)) (ps : List Pair) :
    InSync (modelAdd pareto D X (.pairs ps)).1 (modelAdd pareto st X (.pairs ps)).1 := by
  obtain ⟨e1, e2⟩ := modelAdd_data pareto h.1 h.2.1 X (.pairs ps)
  refine ⟨e1, e2, fun X' _ ho => ?_⟩
  rw [(modelAdd_pairs pareto st X ps).2] at ho
  exact absurd ho (by decide)

theorem genPairsFromIdx_eq (best : Nat) (l : List Nat) :
    genPairsFromIdx best l = (l.filter (· ≠ best)).map fun i => ⟨-1, best, i⟩ := by
  induction l with
  | nil => rfl
  | cons a l ih =>
    by_cases h : a = best
    · simp [genPairsFromIdx, h, ih]
    · simp [genPairsFromIdx, h, ih, preference, getDkScalar]

theorem firstLargest_iff {l : List ℝ} {k : Nat} (h : npArgmax l = .ok k) (i : Nat) : FirstLargest l i ↔ i = k := by
  obtain ⟨m, h1, h2, h3⟩ := npArgmax_spec h
  constructor
  · rintro ⟨m', g1, g2, g3⟩
    have hm : m' = m := le_antisymm (h2 m' (List.mem_of_getElem? g1)) (g2 m (List.mem_of_getElem? h1))
    rcases lt_trichotomy i k with hlt | heq | hgt
    · exact absurd (h3 i m' hlt g1) (by rw [hm]; exact lt_irrefl _)
    · exact heq
    · exact absurd (g3 k m hgt h1) (by rw [hm]; exact lt_irrefl _)
  · rintro rfl
    exact ⟨m, h1, h2, h3⟩

/-- The data handed to `value` by a model in sync with `D`. -/
def fitData (D : ModelState d α R) : Option (List (Fin d → α) × Labels R) := D.X.map fun X => (X, D.y)

open Classical in
theorem studyEvalLoop_eq (value : StudyValue d α R) {D : ModelState d α R} (ev : List (StudySample d α))
    (hne : ∀ s ∈ ev, value (fitData D) s.rewards ≠ []) (st : ModelState d α R) (h : InSync D st) :
    ∃ st', studyEvalLoop value st ev =
        .ok (st', ev.countP fun s => FirstLargest (value (fitData D) s.rewards) s.best) ∧ InSync D st' := by
  induction ev generalizing st with
  | nil => exact ⟨st, rfl, h⟩
  | cons s rest ih =>
    obtain ⟨hs, hv⟩ := inSync_predict h
    obtain ⟨k, hk⟩ := npArgmax_isOk (hne s (by simp))
    obtain ⟨st', he, hs'⟩ := ih (fun s' hs' => hne s' (by simp [hs'])) _ hs
    refine ⟨st', ?_, hs'⟩
    simp only [studyEvalLoop]
    rw [hv, show (D.X.map fun X => (X, D.y)) = fitData D from rfl, hk]
    simp only [he]
    rw [List.countP_cons]
    congr 3
    have := firstLargest_iff hk s.best
    by_cases hb : k = s.best
    · rw [if_pos hb, if_pos (by simpa using this.2 hb.symm)]
    · rw [if_neg hb, if_neg (by simpa using fun hf => hb (this.1 hf).symm)]

theorem studyEvalModel_eq (value : StudyValue d α R) (pareto : Bool) (train ev : List (StudySample d α)) (hev : ev ≠ [])
    (hne : ∀ s ∈ ev, value (fitData (choicesData pareto train)) s.rewards ≠ []) (st : ModelState d α R)
    (h : InSync (choicesData pareto train) st) :
    ∃ st', studyEvalModel value st ev = .ok (st', studyAccuracy value pareto train ev) ∧
      InSync (choicesData pareto train) st' := by
  obtain ⟨st', he, hs⟩ := studyEvalLoop_eq value ev hne st h
  refine ⟨st', ?_, hs⟩
  simp only [studyEvalModel, he, List.length_eq_zero_iff, hev, if_false]
  rfl

theorem choicesData_snoc (pareto : Bool) (train : List (StudySample d α)) (t : StudySample d α) :
    (choicesData pareto (train ++ [t]) : ModelState d α R) =
      (modelAdd pareto (choicesData pareto train) t.rewards
        (.pairs (genPairsFromIdx t.best (List.range t.rewards.length)))).1 := by
  rw [genPairsFromIdx_eq]
  unfold choicesData
  rw [List.map_append, run, List.foldl_append]
  rfl

theorem trainEvalLoop_eq (value : StudyValue d α R) (pareto : Bool) (ev : List (StudySample d α)) (hev : ev ≠ [])
    (hval : ∀ D, ∀ s ∈ ev, value D s.rewards ≠ []) (done todo : List (StudySample d α)) (st : ModelState d α R)
    (h : InSync (choicesData pareto done) st) :
    ∃ st', trainEvalLoop value pareto ev st todo = .ok (st', (List.range todo.length).map fun k =>
      studyAccuracy value pareto (done ++ todo.take (k + 1)) ev) := by
  induction todo generalizing done st with
  | nil => exact ⟨st, rfl⟩
  | cons t rest ih =>
    have hs := inSync_add pareto h t.rewards (genPairsFromIdx t.best (List.range t.rewards.length))
    rw [← choicesData_snoc] at hs
    have hnone := (modelAdd_pairs pareto st t.rewards (genPairsFromIdx t.best (List.range t.rewards.length))).1
    obtain ⟨st1, he, hs1⟩ := studyEvalModel_eq value pareto (done ++ [t]) ev hev (hval _) _ hs
    obtain ⟨st2, he2⟩ := ih (done ++ [t]) st1 hs1
    refine ⟨st2, ?_⟩
    simp only [trainEvalLoop]
    generalize modelAdd pareto st t.rewards (.pairs (genPairsFromIdx t.best (List.range t.rewards.length))) = r at *
    obtain ⟨r1, r2⟩ := r
    simp only at hnone
    subst hnone
    simp only [he, he2]
    rw [List.length_cons, List.range_succ_eq_map, List.map_cons, List.map_map]
    congr 3
    refine List.map_congr_left fun k _ => ?_
    simp

theorem trainEval_eq (value : StudyValue d α R) (pareto : Bool) (r : StudyRun d α) (hev : r.evals ≠ [])
    (hval : ∀ D, ∀ s ∈ r.evals, value D s.rewards ≠ []) (st : ModelState d α R) (h : InSync (choicesData pareto []) st) :
    ∃ st', trainEval value pareto st r = .ok (st', (List.range (r.train.length + 1)).map fun k =>
      studyAccuracy value pareto (r.train.take k) r.evals) := by
  obtain ⟨st1, he, hs1⟩ := studyEvalModel_eq value pareto [] r.evals hev (hval _) st h
  obtain ⟨st2, he2⟩ := trainEvalLoop_eq value pareto r.evals hev hval [] r.train st1 hs1
  refine ⟨st2, ?_⟩
  simp only [trainEval, he, he2]
  rw [List.range_succ_eq_map, List.map_cons, List.map_map]
  congr 3
  

theorem inSync_fresh (pareto : Bool) (st : ModelState d α R) (hX : st.X = none) (hy : st.y = {}) :
    InSync (choicesData pareto []) st := ⟨hX, hy, fun X h => by rw [hX] at h; exact absurd h (by simp)⟩

theorem storeRow_same {l : List ℝ} {m : Nat} (h : l.length = m) : storeRow m l = .ok l := by
  unfold storeRow
  split
  · rename_i a
    simp at h
    subst h
    rfl
  · rw [if_pos h]

theorem storeRow_other {l : List ℝ} {m : Nat} (h : l.length ≠ m) (h1 : l.length ≠ 1) :
    storeRow m l = .error .valueError := by
  unfold storeRow
  split
  · rename_i a
    simp at h1
  · rw [if_neg h]

theorem processLoop_append (value : StudyValue d α R) (pareto : Bool) (m : Nat) (runs rest : List (StudyRun d α))
    (hev : ∀ r ∈ runs, r.evals ≠ []) (hval : ∀ r ∈ runs, ∀ D, ∀ s ∈ r.evals, value D s.rewards ≠ [])
    (hlen : ∀ r ∈ runs, r.train.length = m) (st : ModelState d α R) (hX : st.X = none) (hy : st.y = {}) :
    ∃ st' : ModelState d α R, st'.X = none ∧ st'.y = {} ∧
      processLoop value pareto (m + 1) st (runs ++ rest) = (processLoop value pareto (m + 1) st' rest).map fun rows =>
        (runs.map fun r => (List.range (m + 1)).map fun k =>
          studyAccuracy value pareto (r.train.take k) r.evals) ++ rows := by
  induction runs generalizing st with
  | nil =>
    refine ⟨st, hX, hy, ?_⟩
    simp only [List.nil_append, List.map_nil]
    cases processLoop value pareto (m + 1) st rest <;> rfl
  | cons r runs ih =>
    obtain ⟨st1, he⟩ := trainEval_eq value pareto r (hev r (by simp)) (hval r (by simp)) st
      (inSync_fresh pareto st hX hy)
    have hm := hlen r (by simp)
    rw [hm] at he
    obtain ⟨st', h1, h2, h3⟩ := ih (fun r hr => hev r (by simp [hr])) (fun r hr => hval r (by simp [hr]))
      (fun r hr => hlen r (by simp [hr])) (modelReset st1) rfl rfl
    refine ⟨st', h1, h2, ?_⟩
    rw [List.cons_append]
    simp only [processLoop, he]
    rw [storeRow_same (by simp)]
    simp only [h3]
    cases processLoop value pareto (m + 1) st' rest <;> simp [Except.map]

theorem processLoop_eq (value : StudyValue d α R) (pareto : Bool) (m : Nat) (runs : List (StudyRun d α))
    (hev : ∀ r ∈ runs, r.evals ≠ []) (hval : ∀ r ∈ runs, ∀ D, ∀ s ∈ r.evals, value D s.rewards ≠ [])
    (hlen : ∀ r ∈ runs, r.train.length = m) (st : ModelState d α R) (hX : st.X = none) (hy : st.y = {}) :
    processLoop value pareto (m + 1) st runs = .ok (runs.map fun r => (List.range (m + 1)).map fun k =>
      studyAccuracy value pareto (r.train.take k) r.evals) := by
  obtain ⟨st', -, -, h⟩ := processLoop_append value pareto m runs [] hev hval hlen st hX hy
  simpa [processLoop, Except.map] using h

theorem npMean_perm {l l' : List ℝ} (h : l.Perm l') : npMean l = npMean l' := by
  unfold npMean
  rw [h.sum_eq, h.length_eq]

theorem npStd_perm {l l' : List ℝ} (h : l.Perm l') : npStd l = npStd l' := by
  unfold npStd
  rw [npMean_perm h, (h.map _).sum_eq, h.length_eq]

end Lop
