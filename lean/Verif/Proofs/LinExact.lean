import Verif.Proofs.LinLoop
import Verif.Proofs.TrainData

/-! # Helper lemmas: exactly which comparisons the linear learning example stores -/

namespace Lop

open Spec

variable {d : Nat}

theorem linLoop_exact (f : (Fin d → ℝ) → ℝ) (qs : List (List (Fin d → ℝ))) (hq : ∀ q ∈ qs, q ≠ [])
    (st st' : ModelState d ℝ ℝ) (h : PairsTruthful f (st.X.getD []) (st.y.rel.getD []))
    (hst : linLearnerLoop f st qs = .ok st') :
    ∃ ls, List.Forall₂ (fun q l => ∃ b, npArgmax (q.map f) = .ok b ∧ l = chosenOver q b) qs ls ∧
      (st'.y.rel.getD []).map (fun p => ((st'.X.getD [])[winner p]?, (st'.X.getD [])[loser p]?)) =
        (st.y.rel.getD []).map (fun p => ((st.X.getD [])[winner p]?, (st.X.getD [])[loser p]?)) ++ ls.flatten := by
  induction qs generalizing st with
  | nil =>
    simp only [linLearnerLoop, Except.ok.injEq] at hst
    subst hst
    exact ⟨[], .nil, by simp⟩
  | cons q rest ih =>
    obtain ⟨k, hk⟩ := npArgmax_isOk (l := q.map f) (by simpa using hq q (by simp))
    obtain ⟨ht, -, -⟩ := linPairs_spec hk
    obtain ⟨e1, e2, e3⟩ := linAdd_eq st q (genPairsFromIdx k (List.range q.length))
    rcases hm : modelAdd false st q (.pairs (genPairsFromIdx k (List.range q.length))) with ⟨s1, e⟩
    rw [hm] at e1 e2 e3
    simp only at e1 e2 e3
    subst e1
    obtain ⟨p1, p2⟩ := linPredict_keeps s1
    have hX : (modelPredict s1).1.X.getD [] = st.X.getD [] ++ q := by rw [p1, e2]; rfl
    have hY := e3
    rw [← p2] at hY
    have h1 : PairsTruthful f ((modelPredict s1).1.X.getD []) ((modelPredict s1).1.y.rel.getD []) := by
      rw [hX, hY]
      intro p hp
      rcases List.mem_append.1 hp with hp | hp
      · obtain ⟨hd, a, b, ha, hb, hab⟩ := h p hp
        exact ⟨hd, a, b, getElem?_append_of_some ha _, getElem?_append_of_some hb _, hab⟩
      · obtain ⟨p', hp', rfl⟩ := List.mem_map.1 hp
        obtain ⟨hd, a, b, ha, hb, hab⟩ := ht p' hp'
        exact ⟨hd, a, b, getElem?_append_shift ha _, getElem?_append_shift hb _, hab⟩
    simp only [linLearnerLoop, hk, hm] at hst
    obtain ⟨ls, hf, hE⟩ := ih (fun q' hq' => hq q' (by simp [hq'])) _ h1 hst
    refine ⟨chosenOver q k :: ls, .cons ⟨k, hk, rfl⟩ hf, ?_⟩
    rw [hE, hX, hY, List.map_append, List.flatten_cons, List.append_assoc]
    congr 1
    · apply List.map_congr_left
      intro p hp
      obtain ⟨hd, a, b, ha, hb, -⟩ := h p hp
      have hw : winner p = p.u := by simp [winner, hd]
      have hl : loser p = p.v := by simp [loser, hd]
      rw [hw, hl, ha, hb, getElem?_append_of_some ha, getElem?_append_of_some hb]
    · congr 1
      rw [chosenOver, ← genPairs_points, List.map_map]
      apply List.map_congr_left
      intro p hp
      obtain ⟨hd, a, b, ha, hb, -⟩ := ht p hp
      have hw : winner p = p.u := by simp [winner, hd]
      have hl : loser p = p.v := by simp [loser, hd]
      have hw' : winner ⟨p.dk, p.u + (st.X.getD []).length, p.v + (st.X.getD []).length⟩ =
        p.u + (st.X.getD []).length := by simp [winner, hd]
      have hl' : loser ⟨p.dk, p.u + (st.X.getD []).length, p.v + (st.X.getD []).length⟩ =
        p.v + (st.X.getD []).length := by simp [loser, hd]
      simp only [Function.comp_apply]
      rw [hw', hl', hw, hl, ha, hb, getElem?_append_shift ha, getElem?_append_shift hb]

end Lop
