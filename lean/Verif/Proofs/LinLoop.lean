import Verif.Model.LinLoop
import Verif.Spec.LinLoop
import Verif.Proofs.Study

/-! # Helper lemmas: the loop of the linear learning example -/

namespace Lop

open Spec

variable {d : Nat}

theorem linPredict_keeps (st : ModelState d ℝ ℝ) :
    (modelPredict st).1.X = st.X ∧ (modelPredict st).1.y = st.y := by
  unfold modelPredict
  cases h : st.X with
  | none => simp [h]
  | some X =>
    by_cases ho : st.optimized
    · simp [ho, h]
    · simp [ho, modelOptimize, h]

theorem linAdd_eq (st : ModelState d ℝ ℝ) (q : List (Fin d → ℝ)) (ps : List Pair) :
    (modelAdd false st q (.pairs ps)).2 = none ∧
      (modelAdd false st q (.pairs ps)).1.X = some (st.X.getD [] ++ q) ∧
      (modelAdd false st q (.pairs ps)).1.y.rel.getD [] =
        st.y.rel.getD [] ++ ps.map fun p => ⟨p.dk, p.u + (st.X.getD []).length, p.v + (st.X.getD []).length⟩ := by
  rcases ps with _ | ⟨p, ps⟩
  · by_cases h : 0 < (st.X.getD []).length <;> simp [modelAdd, addLabels]
  · by_cases h : 0 < (st.X.getD []).length
    · simp [modelAdd, addLabels, h, appendOpt]
    · have h0 : (st.X.getD []).length = 0 := by omega
      simp [modelAdd, addLabels, appendOpt, h0]

theorem getElem?_append_of_some {β : Type*} {l : List β} {i : Nat} {a : β} (h : l[i]? = some a) (m : List β) :
    (l ++ m)[i]? = some a := by
  rw [List.getElem?_append_left (List.getElem?_eq_some_iff.mp h).1, h]

theorem getElem?_append_shift {β : Type*} {q : List β} {i : Nat} {a : β} (h : q[i]? = some a) (m : List β) :
    (m ++ q)[i + m.length]? = some a := by
  rw [List.getElem?_append_right (by omega)]
  simpa using h

/-- The pairs of one question. -/
theorem linPairs_spec {f : (Fin d → ℝ) → ℝ} {q : List (Fin d → ℝ)} {k : Nat} (hk : npArgmax (q.map f) = .ok k) :
    PairsTruthful f q (genPairsFromIdx k (List.range q.length)) ∧
      (NotTied f q → SomeStrict f q (genPairsFromIdx k (List.range q.length))) ∧
      (genPairsFromIdx k (List.range q.length)).length = q.length - 1 := by
  obtain ⟨m, h1, h2, -⟩ := npArgmax_spec hk
  rw [List.getElem?_map, Option.map_eq_some_iff] at h1
  obtain ⟨a, ha, rfl⟩ := h1
  have hkl : k < q.length := (List.getElem?_eq_some_iff.mp ha).1
  rw [genPairsFromIdx_eq]
  refine ⟨?_, ?_, ?_⟩
  · intro p hp
    obtain ⟨i, hi, rfl⟩ := List.mem_map.1 hp
    have hil : i < q.length := by simpa using (List.mem_filter.1 hi).1
    exact ⟨rfl, a, q[i], ha, List.getElem?_eq_getElem hil, h2 _ (List.mem_map_of_mem (List.getElem_mem hil))⟩
  · rintro ⟨x, hx, b, hb, hlt⟩
    have hba : f b < f a := lt_of_lt_of_le hlt (h2 _ (List.mem_map_of_mem hx))
    obtain ⟨i, hi⟩ := List.mem_iff_getElem?.1 hb
    have hil : i < q.length := (List.getElem?_eq_some_iff.mp hi).1
    have hik : i ≠ k := by
      rintro rfl
      rw [ha] at hi
      cases hi
      exact lt_irrefl _ hba
    exact ⟨⟨-1, k, i⟩, List.mem_map.2 ⟨i, List.mem_filter.2 ⟨List.mem_range.2 hil, by simpa using hik⟩, rfl⟩,
      a, b, ha, hi, hba⟩
  · rw [List.length_map]
    have hnd : (List.range q.length).Nodup := List.nodup_range
    have := hnd.erase_eq_filter k
    have hl := List.length_erase_of_mem (List.mem_range.2 hkl)
    rw [this, List.length_range] at hl
    rw [← hl]
    congr 1
    apply List.filter_congr
    intro x _
    by_cases hx : x = k <;> simp [hx]

theorem linLoop_spec (f : (Fin d → ℝ) → ℝ) (qs : List (List (Fin d → ℝ))) (hq : ∀ q ∈ qs, q ≠ [])
    (st : ModelState d ℝ ℝ) (h : PairsTruthful f (st.X.getD []) (st.y.rel.getD [])) :
    ∃ st', linLearnerLoop f st qs = .ok st' ∧ st'.X.getD [] = st.X.getD [] ++ qs.flatten ∧
      PairsTruthful f (st'.X.getD []) (st'.y.rel.getD []) ∧
      (st'.y.rel.getD []).length = (st.y.rel.getD []).length + (qs.map fun q => q.length - 1).sum ∧
      ((SomeStrict f (st.X.getD []) (st.y.rel.getD []) ∨ ∃ q ∈ qs, NotTied f q) →
        SomeStrict f (st'.X.getD []) (st'.y.rel.getD [])) := by
  induction qs generalizing st with
  | nil => exact ⟨st, rfl, by simp, h, by simp, by simp⟩
  | cons q rest ih =>
    obtain ⟨k, hk⟩ := npArgmax_isOk (l := q.map f) (by simpa using hq q (by simp))
    obtain ⟨ht, hstr, hlen⟩ := linPairs_spec hk
    obtain ⟨e1, e2, e3⟩ := linAdd_eq st q (genPairsFromIdx k (List.range q.length))
    rcases hm : modelAdd false st q (.pairs (genPairsFromIdx k (List.range q.length))) with ⟨s1, e⟩
    rw [hm] at e1 e2 e3
    simp only at e1 e2 e3
    subst e1
    obtain ⟨p1, p2⟩ := linPredict_keeps s1
    have hX : (modelPredict s1).1.X.getD [] = st.X.getD [] ++ q := by rw [p1, e2]; rfl
    have hY := e3
    rw [← p2] at hY
    have h1 : PairsTruthful f ((modelPredict s1).1.X.getD []) ((modelPredict s1).1.y.rel.getD []) := by
      rw [hX, hY]
      intro p hp
      rcases List.mem_append.1 hp with hp | hp
      · obtain ⟨hd, a, b, ha, hb, hab⟩ := h p hp
        exact ⟨hd, a, b, getElem?_append_of_some ha _, getElem?_append_of_some hb _, hab⟩
      · obtain ⟨p', hp', rfl⟩ := List.mem_map.1 hp
        obtain ⟨hd, a, b, ha, hb, hab⟩ := ht p' hp'
        exact ⟨hd, a, b, getElem?_append_shift ha _, getElem?_append_shift hb _, hab⟩
    obtain ⟨st', hl, hXf, hT, hL, hS⟩ := ih (fun q' hq' => hq q' (by simp [hq'])) _ h1
    refine ⟨st', ?_, ?_, hT, ?_, ?_⟩
    · simp only [linLearnerLoop, hk, hm]
      exact hl
    · rw [hXf, hX]; simp
    · rw [hL, hY]
      simp only [List.length_append, List.length_map, hlen, List.map_cons, List.sum_cons]
      omega
    · intro hor
      apply hS
      rw [hX, hY]
      rcases hor with ⟨p, hp, a, b, ha, hb, hab⟩ | ⟨q', hq', hn⟩
      · exact .inl ⟨p, List.mem_append_left _ hp, a, b, getElem?_append_of_some ha _, getElem?_append_of_some hb _, hab⟩
      · rcases List.mem_cons.1 hq' with rfl | hq'
        · obtain ⟨p, hp, a, b, ha, hb, hab⟩ := hstr hn
          exact .inl ⟨_, List.mem_append_right _ (List.mem_map_of_mem hp), a, b, getElem?_append_shift ha _,
            getElem?_append_shift hb _, hab⟩
        · exact .inr ⟨q', hq', hn⟩

theorem linScript_spec (f : (Fin d → ℝ) → ℝ) (qs : List (List (Fin d → ℝ))) (hq : ∀ q ∈ qs, q ≠ []) :
    ∃ st', linLearnerScript f qs = .ok st' ∧ st'.X.getD [] = qs.flatten ∧
      PairsTruthful f (st'.X.getD []) (st'.y.rel.getD []) ∧
      (st'.y.rel.getD []).length = (qs.map fun q => q.length - 1).sum ∧
      ((∃ q ∈ qs, NotTied f q) → SomeStrict f (st'.X.getD []) (st'.y.rel.getD [])) := by
  obtain ⟨st', h1, h2, h3, h4, h5⟩ := linLoop_spec f qs hq (modelPredict ({} : ModelState d ℝ ℝ)).1
    (by simp [modelPredict, PairsTruthful])
  exact ⟨st', h1, by simpa [modelPredict] using h2, h3, by simpa [modelPredict] using h4, fun h => h5 (.inr h)⟩

end Lop
