import Verif.Props.Data

/-! # C42 (second half): rating indices in documented histories -/

namespace Lop.Props

open Lop Lop.Spec

variable {d : Nat} {α : Type*} [LinearOrder α] {R : Type*} [Field R] [LinearOrder R]
  [IsStrictOrderedRing R]

theorem zipIdx_shift_snd {β : Type*} (v : List β) (n : Nat) :
    (v.zipIdx.map fun (a, i) => (a, i + n)).map (·.2) = List.range' n v.length := by
  rw [List.map_map]
  refine List.ext_getElem (by simp) fun j h1 h2 => ?_
  simp [Nat.add_comm]

theorem nodup_append_fresh (old : List Nat) (n k : Nat) (h1 : old.Nodup) (h2 : ∀ i ∈ old, i < n) :
    (old ++ List.range' n k).Nodup := by
  rw [List.nodup_append]
  refine ⟨h1, List.nodup_range', fun a ha b hb => ?_⟩
  have := h2 a ha
  rw [List.mem_range'_1] at hb
  omega

/-- No two stored ratings of the same kind refer to the same training index. -/
def DistinctRated (st : ModelState d α R) : Prop :=
  ((st.y.ord.getD []).map (·.2)).Nodup ∧ ((st.y.abs.getD []).map (·.2)).Nodup

theorem distinct_add (pareto : Bool) (st : ModelState d α R) (hr : InRange st) (hn : DistinctRated st)
    (X : List (Fin d → α)) (inp : AddInput R) (h : Documented (Op.add X inp)) :
    DistinctRated (modelAdd pareto st X inp).1 := by
  obtain ⟨-, hro, hra⟩ := hr
  have key : ∀ y, addLabels st.y (st.X.getD []).length inp = .ok (some y) →
      ((y.ord.getD []).map (·.2)).Nodup ∧ ((y.abs.getD []).map (·.2)).Nodup := by
    intro y hy
    cases inp with
    | pairs ps =>
      simp only [addLabels] at hy
      split at hy <;> split at hy <;> cases hy <;> exact hn
    | ordinalVec v =>
      simp only [addLabels, addOrd] at hy
      split at hy
      · cases hy
      · cases hy
        refine ⟨?_, hn.2⟩
        simp only [appendOpt, Option.getD_some, List.map_append]
        rw [zipIdx_shift_snd]
        exact nodup_append_fresh _ _ _ hn.1 (by simpa using fun i a ha => hro (a, i) ha)
    | absVec v =>
      simp only [addLabels, addAbs] at hy
      split at hy
      · cases hy
      · cases hy
        refine ⟨hn.1, ?_⟩
        simp only [appendOpt, Option.getD_some, List.map_append]
        have := zipIdx_shift_snd v (st.X.getD []).length
        rw [List.map_map, show ((fun x : R × Nat => x.2) ∘ fun r : R × Nat => (clampRating r.1, r.2)) =
          fun x => x.2 from rfl, this]
        exact nodup_append_fresh _ _ _ hn.2 (by simpa using fun i a ha => hra (a, i) ha)
    | ordinalMat m => exact h.elim
    | absTuple v => exact h.elim
    | absOther => exact h.elim
    | otherType => exact h.elim
  unfold modelAdd
  simp only
  split
  · exact hn
  · exact hn
  · next y hy =>
    have := key y hy
    split
    · split
      · exact this
      · exact this
    · exact this

/-- C42: after any history of documented `add` calls interleaved with `reset`, `predict` and `optimize`, no
training index carries two ordinal or two absolute ratings, so that assignment and accumulation agree. -/
theorem C42_documented_distinct (pareto : Bool) (hd : pareto = true → 0 < d) (ops : List (Op d α R))
    (hdoc : ∀ o ∈ ops, Documented o) :
    (((run pareto {} ops).y.ord.getD []).map (·.2)).Nodup ∧
      (((run pareto {} ops).y.abs.getD []).map (·.2)).Nodup := by
  show DistinctRated _
  induction ops using List.reverseRecOn with
  | nil => simp [run, DistinctRated]
  | append_singleton ops o ih =>
    have ih := ih fun o ho => hdoc o (List.mem_append_left _ ho)
    have hr := (C16_history_decodes pareto hd ops fun o ho => hdoc o (List.mem_append_left _ ho)).2
    have ho := hdoc o (by simp)
    have hrun : run pareto {} (ops ++ [o]) = (exec pareto (run pareto {} ops) o).1 := by
      simp [run]
    rw [hrun]
    cases o with
    | add X inp => exact distinct_add pareto _ hr ih X inp ho
    | addPrior pts => exact ho.elim
    | reset => simp [exec, modelReset, DistinctRated]
    | predict =>
      have : (exec pareto (run pareto {} ops) Op.predict).1.y = (run pareto {} ops).y := by
        unfold exec modelPredict modelOptimize
        simp only
        split
        · simp
        · split <;> simp_all
      simpa only [DistinctRated, this] using ih
    | optimize =>
      have : (exec pareto (run pareto {} ops) Op.optimize).1.y = (run pareto {} ops).y := by
        unfold exec modelOptimize
        simp only
        split <;> simp_all
      simpa only [DistinctRated, this] using ih

/-- Two batches of ratings: indices 0, 1 and 2. -/
example : ((run true {} ([.add [![0, 0], ![1, 1]] (.absVec [1 / 2, 1]), .add [![2, 0]] (.absVec [1 / 4])] :
    List (Op 2 Int ℚ))).y.abs.getD []).map (·.2) = [0, 1, 2] := by decide +kernel

/-- C42 refuted for the tuple form, which keeps the indices of the caller. -/
theorem C42_tuple_counterexample :
    ¬ (((run false {} ([.add [![0, 0]] (.absTuple [(1 / 4, 0)]), .add [![1, 1]] (.absTuple [(3 / 4, 0)])] :
      List (Op 2 Int ℚ))).y.abs.getD []).map (·.2)).Nodup := by decide +kernel

/-- C42 refuted once `add_prior` is used: it deletes unreferenced training points without re-indexing the
ratings, and the next documented `add` uses an index again. -/
theorem C42_prior_counterexample :
    let ops : List (Op 2 Int ℚ) :=
      [.add [![0, 5], ![5, 0], ![6, -1]] (.absVec [1 / 4, 1 / 2, 1]), .addPrior [![1, 6]],
       .add [![6, 2]] (.absVec [3 / 4])]
    (∀ o ∈ ops, DocumentedOrPrior o) ∧ ((run true {} ops).y.abs.getD []).map (·.2) = [0, 1, 2, 2] := by
  refine ⟨?_, by decide +kernel⟩
  intro o ho
  simp only [List.mem_cons, List.not_mem_nil, or_false] at ho
  rcases ho with rfl | rfl | rfl <;> norm_num [DocumentedOrPrior, Documented]

end Lop.Props
