import Verif.Proofs.LabelSlots
import Mathlib.Tactic.NormNum
import Mathlib.Tactic.Ring

/-! # C92: every kind of label is scored by its own probit -/

namespace Lop.Props

open Lop Lop.Spec

variable {d : Nat} {α : Type*} [LinearOrder α] {R : Type*} [Field R] [LinearOrder R]

/-- C92, exactly when: with the extra probits under the (distinct) names `other`, the three kinds of
labels are scored by their own probits iff the name of the pairwise type is not among them, the name
of the ordinal type is absent or first, and the name of the rating type is absent or second. -/
theorem C92_routing_iff (other : List String) (h : other.Nodup) :
    WellRouted other ↔ "relative_discrete" ∉ other ∧
      ("ordinal" ∈ other → other[0]? = some "ordinal") ∧
      ("abs" ∈ other → other[1]? = some "abs") := by
  have hpos : ∀ k : String, k ∈ other → ∀ i : Nat, (other[i]? = some k ↔ other.idxOf k = i) := by
    intro k hk i
    constructor
    · intro hi
      obtain ⟨hlt, hik⟩ := List.getElem?_eq_some_iff.1 hi
      rw [← hik]
      exact List.Nodup.idxOf_getElem h i hlt
    · rintro rfl
      exact List.getElem?_idxOf hk
  have hm : ∀ i : Nat, modelProbits[i]? = some .pairwise ↔ i = 0 := by
    intro i
    match i with
    | 0 => simp [modelProbits]
    | 1 => simp [modelProbits]
    | 2 => simp [modelProbits]
    | n + 3 => simp [modelProbits]
  have hm1 : ∀ i : Nat, modelProbits[i]? = some .ordinal ↔ i = 1 := by
    intro i
    match i with
    | 0 => simp [modelProbits]
    | 1 => simp [modelProbits]
    | 2 => simp [modelProbits]
    | n + 3 => simp [modelProbits]
  have hm2 : ∀ i : Nat, modelProbits[i]? = some .rating ↔ i = 2 := by
    intro i
    match i with
    | 0 => simp [modelProbits]
    | 1 => simp [modelProbits]
    | 2 => simp [modelProbits]
    | n + 3 => simp [modelProbits]
  have e0 : scoringProbit other "relative_discrete" = some .pairwise ↔ "relative_discrete" ∉ other := by
    unfold scoringProbit
    rw [probitIdxs_get other h]
    by_cases hk : "relative_discrete" ∈ other
    · rw [if_pos hk, Option.bind_some, hm]
      constructor
      · intro h; omega
      · intro h; exact absurd hk h
    · rw [if_neg hk]
      simp [hk, defaultIdxs, dictGet, modelProbits]
  have e1 : scoringProbit other "ordinal" = some .ordinal ↔
      ("ordinal" ∈ other → other[0]? = some "ordinal") := by
    unfold scoringProbit
    rw [probitIdxs_get other h]
    by_cases hk : "ordinal" ∈ other
    · rw [if_pos hk, Option.bind_some, hm1, hpos _ hk 0]
      constructor
      · intro h _; omega
      · intro h; have := h hk; omega
    · rw [if_neg hk]
      simp [hk, defaultIdxs, dictGet, modelProbits]
  have e2 : scoringProbit other "abs" = some .rating ↔ ("abs" ∈ other → other[1]? = some "abs") := by
    unfold scoringProbit
    rw [probitIdxs_get other h]
    by_cases hk : "abs" ∈ other
    · rw [if_pos hk, Option.bind_some, hm2, hpos _ hk 1]
      constructor
      · intro h _; omega
      · intro h; have := h hk; omega
    · rw [if_neg hk]
      simp [hk, defaultIdxs, dictGet, modelProbits]
  rw [← e0, ← e1, ← e2]
  simp only [WellRouted, ownProbit, List.forall_mem_cons, List.not_mem_nil, false_imp_iff]
  exact ⟨fun h => ⟨h.1, h.2.1, h.2.2.1⟩, fun h => ⟨h.1, h.2.1, h.2.2, by simp⟩⟩

/-- C92: in a model in which every label type has its own probit, over every history of `add` calls
(accepted or not) and `reset`s the containers hold exactly the labels a model with one container per
type would hold, the same calls raise the same exceptions, and the log-likelihood of the training data
is the sum of the three types' log-likelihoods, each under its own probit. No such history makes the model
count as fitted. -/
theorem C92_likelihood (other : List String) (hw : WellRouted other) (pareto : Bool)
    (ll : ProbitKind → Slot R → R) (ops : List (SlotOp d α R)) :
    let st := ops.foldl (fun s o => (slotExec pareto s o).1) (SlotState.init other)
    let ms := ops.foldl (fun s o => (fieldExec pareto s o).1) ({} : ModelState d α R)
    st.X = ms.X ∧ slotLogLik ll st = typedLogLik ll ms.y ∧ st.optimized = false ∧ ms.optimized = false ∧
      ∀ o, (slotExec pareto st o).2 = (fieldExec pareto ms o).2 := by
  intro st ms
  have hopt : ∀ ops : List (SlotOp d α R),
      (ops.foldl (fun s o => (slotExec pareto s o).1) (SlotState.init other)).optimized = false ∧
      (ops.foldl (fun s o => (fieldExec pareto s o).1) ({} : ModelState d α R)).optimized = false := by
    intro ops
    induction ops using List.reverseRecOn with
    | nil => exact ⟨rfl, rfl⟩
    | append_singleton ops o ih =>
      simp only [List.foldl_append, List.foldl_cons, List.foldl_nil]
      obtain ⟨h1, h2⟩ := ih
      cases o with
      | add X inp =>
        simp only [slotExec, fieldExec, slotAdd, modelAdd]
        constructor
        · split
          · exact h1
          · exact h1
          · split
            · exact h1
            · rfl
        · split
          · exact h2
          · exact h2
          · rfl
      | reset => exact ⟨h1, h2⟩
  have hinit : ∀ idxs : List (String × Nat), idxs = probitIdxs other →
      SameLabels (List.replicate idxs.length (none : Option (Slot R))) ({} : Labels R) := by
    rintro _ rfl
    have h3 := probitIdxs_length other
    exact ⟨by simpa using h3, by rw [List.getElem?_replicate, if_pos (by omega)]; rfl,
      by rw [List.getElem?_replicate, if_pos (by omega)]; rfl,
      by rw [List.getElem?_replicate, if_pos (by omega)]; rfl⟩
  have key : ∀ ops : List (SlotOp d α R),
      let st := ops.foldl (fun s o => (slotExec pareto s o).1) (SlotState.init other)
      let ms := ops.foldl (fun s o => (fieldExec pareto s o).1) ({} : ModelState d α R)
      st.idxs = probitIdxs other ∧ st.X = ms.X ∧ SameLabels st.slots ms.y := by
    intro ops
    induction ops using List.reverseRecOn with
    | nil => exact ⟨rfl, rfl, hinit _ rfl⟩
    | append_singleton ops o ih =>
      simp only [List.foldl_append, List.foldl_cons, List.foldl_nil]
      obtain ⟨h1, h2, h3⟩ := ih
      cases o with
      | add X inp =>
        obtain ⟨k1, k2, k3, _⟩ := slotAdd_same hw pareto _ _ h1 h2 h3 X inp
        exact ⟨k1, k2, k3⟩
      | reset => exact ⟨h1, rfl, hinit _ h1⟩
  obtain ⟨h1, h2, h3⟩ := key ops
  refine ⟨h2, ?_, (hopt ops).1, (hopt ops).2, fun o => ?_⟩
  · have hz : modelProbits.zipIdx = [(.pairwise, 0), (.ordinal, 1), (.rating, 2)] := rfl
    simp only [slotLogLik, hz, List.map_cons, List.map_nil, List.sum_cons, List.sum_nil, add_zero]
    have r0 : st.slots[0]? = _ := h3.rel
    have r1 : st.slots[1]? = _ := h3.ord
    have r2 : st.slots[2]? = _ := h3.abs
    rw [r0, r1, r2]
    have hms : ms.y = (ops.foldl (fun s o => (fieldExec pareto s o).1) ({} : ModelState d α R)).y := rfl
    rw [← hms]
    unfold typedLogLik
    cases ms.y.rel <;> cases ms.y.ord <;> cases ms.y.abs <;> simp [Option.join, add_assoc]
  · cases o with
    | add X inp => exact (slotAdd_same hw pareto _ _ h1 h2 h3 X inp).2.2.2
    | reset => rfl

/-- A model without extra probits is well routed … -/
theorem C92_default : WellRouted [] := (C92_routing_iff [] (by simp)).2 (by simp)

/-- … and extra probits under new names do not disturb it. -/
theorem C92_new_names (other : List String) (h : other.Nodup)
    (hn : ∀ k ∈ other, k ≠ "relative_discrete" ∧ k ≠ "ordinal" ∧ k ≠ "abs") : WellRouted other :=
  (C92_routing_iff other h).2
    ⟨fun hk => (hn _ hk).1 rfl, fun hk => absurd rfl (hn _ hk).2.1, fun hk => absurd rfl (hn _ hk).2.2⟩

/-- C92 fails for the labels of an additional type: they are dropped. In every state, adding points
with labels of a type other than the three (no automatic pairs) raises nothing, stores the points and
leaves the log-likelihood as it was, whatever the labels. -/
theorem C92_additional_false (ll : ProbitKind → Slot R → R) (st : SlotState d α R)
    (X : List (Fin d → α)) :
    (slotAdd false st X .otherType).2 = none ∧
      (slotAdd false st X .otherType).1.X = some (st.X.getD [] ++ X) ∧
      slotLogLik ll (slotAdd false st X .otherType).1 = slotLogLik ll st := by
  simp [slotAdd, slotLabels, slotPareto, slotLogLik]

/-- C92 fails for `PreferenceModel(other_probits={'abs': AbsBoundProbit()})`, the configuration of
the repository's own test: the ratings are scored by the ordinal probit, for every model of how the
probits score. -/
theorem C92_test_configuration_false (ll : ProbitKind → Slot ℚ → ℚ) :
    scoringProbit ["abs"] "abs" = some .ordinal ∧
      slotLogLik ll (slotAdd false (SlotState.init ["abs"]) [fun _ : Fin 1 => (0 : Int)] (.absVec [(1 / 2 : ℚ)])).1 =
        ll .ordinal (.vals [(.inr (1 / 2), 0)]) := by
  constructor
  · decide
  · have h : (slotAdd false (SlotState.init ["abs"]) [fun _ : Fin 1 => (0 : Int)] (.absVec [(1 / 2 : ℚ)])).1.slots =
        [none, some (.vals [(.inr (1 / 2), 0)]), none] := by
      have hi : probitIdxs ["abs"] = [("relative_discrete", 0), ("ordinal", 1), ("abs", 1)] := by decide
      have hc : clampRating (1 / 2 : ℚ) = 1 / 2 := by norm_num [clampRating]
      have hg : dictGet [("relative_discrete", 0), ("ordinal", 1), ("abs", 1)] "abs" = some 1 := by decide
      norm_num [slotAdd, slotLabels, slotAbs, slotPareto, SlotState.init, hi, storeVals, hg,
        appendVals, List.replicate, hc, Except.map]
    have hz : modelProbits.zipIdx = [(.pairwise, 0), (.ordinal, 1), (.rating, 2)] := rfl
    simp only [slotLogLik, hz, h]
    simp

/-- With all three names given as extra probits the ratings have no position at all: every accepted
rating raises `IndexError`. -/
theorem C92_all_names_false (st : SlotState d α R) (hi : st.idxs = probitIdxs ["relative_discrete", "ordinal", "abs"])
    (hs : st.slots.length = st.idxs.length) (X : List (Fin d → α)) (pareto : Bool) (v : List R)
    (hv : ∀ a ∈ v, 0 ≤ a ∧ a ≤ 1) :
    (slotAdd pareto st X (.absVec v)).2 = some .indexError := by
  have hi' : probitIdxs ["relative_discrete", "ordinal", "abs"] =
      [("relative_discrete", 1), ("ordinal", 2), ("abs", 3)] := by decide
  rw [hi, hi'] at hs
  have hlen : st.slots[3]? = none := List.getElem?_eq_none (by simp at hs; omega)
  have hc : ¬ (((v.zipIdx.map fun (x : R × Nat) => (x.1, x.2 + (st.X.getD []).length)).any
        fun r => decide (r.1 < 0)) = true ∨
      ((v.zipIdx.map fun (x : R × Nat) => (x.1, x.2 + (st.X.getD []).length)).any
        fun r => decide (r.1 > 1)) = true) := by
    simp only [List.any_map, List.any_eq_true, Function.comp, decide_eq_true_eq, not_or, not_exists,
      not_and, not_lt, gt_iff_lt]
    refine ⟨fun x hx => (hv x.1 ?_).1, fun x hx => (hv x.1 ?_).2⟩ <;>
    · obtain ⟨_, h⟩ := List.mem_zipIdx' hx
      rw [h]; exact List.getElem_mem _
  have hg : dictGet [("relative_discrete", 1), ("ordinal", 2), ("abs", 3)] "abs" = some 3 := by decide
  simp only [slotAdd, slotLabels, slotAbs, if_neg hc, hi, hi', storeVals, hg, appendVals, hlen, Except.map]

/-- With the name of the pairwise type third, automatic pairs have no position: an accepted rating of a point that dominates another raises
`IndexError` when the rating and the points are already stored, and the mark that the model is fitted stays as it was. -/
theorem C92_half_added_false (st : SlotState d α R) (hi : st.idxs = probitIdxs ["ordinal", "abs", "relative_discrete"])
    (hs : st.slots.length = st.idxs.length) (hnone : st.slots[2]? = some none) (X : List (Fin d → α)) (v : List R)
    (hv : ∀ a ∈ v, 0 ≤ a ∧ a ≤ 1) (hp : paretoPairs (st.X.getD []).length X (st.X.getD [] ++ X) ≠ [])
    (hl : 1 < (st.X.getD [] ++ X).length) :
    (slotAdd true st X (.absVec v)).2 = some .indexError ∧ (slotAdd true st X (.absVec v)).1.X = some (st.X.getD [] ++ X) ∧
      (slotAdd true st X (.absVec v)).1.slots[2]? =
        some (some (.vals (v.zipIdx.map fun x => (.inr (clampRating x.1), x.2 + (st.X.getD []).length)))) ∧
      (slotAdd true st X (.absVec v)).1.optimized = st.optimized := by
  have hi' : probitIdxs ["ordinal", "abs", "relative_discrete"] =
      [("relative_discrete", 3), ("ordinal", 1), ("abs", 2)] := by decide
  rw [hi, hi'] at hs
  have hs3 : st.slots.length = 3 := by simpa using hs
  have hc : ¬ (((v.zipIdx.map fun (x : R × Nat) => (x.1, x.2 + (st.X.getD []).length)).any
        fun r => decide (r.1 < 0)) = true ∨
      ((v.zipIdx.map fun (x : R × Nat) => (x.1, x.2 + (st.X.getD []).length)).any
        fun r => decide (r.1 > 1)) = true) := by
    simp only [List.any_map, List.any_eq_true, Function.comp, decide_eq_true_eq, not_or, not_exists,
      not_and, not_lt, gt_iff_lt]
    refine ⟨fun x hx => (hv x.1 ?_).1, fun x hx => (hv x.1 ?_).2⟩ <;>
    · obtain ⟨_, h⟩ := List.mem_zipIdx' hx
      rw [h]; exact List.getElem_mem _
  have hg : dictGet [("relative_discrete", 3), ("ordinal", 1), ("abs", 2)] "abs" = some 2 := by decide
  have hg0 : dictGet [("relative_discrete", 3), ("ordinal", 1), ("abs", 2)] "relative_discrete" = some 3 := by decide
  have hno : ∀ l : List (Option (Slot R)), l.length = 3 → l[3]? = none := fun l h => List.getElem?_eq_none (by omega)
  have hset : ∀ a : Option (Slot R), (st.slots.set 2 a)[3]? = none := fun a => hno _ (by rw [List.length_set, hs3])
  have hemp : (paretoPairs (st.X.getD []).length X (st.X.getD [] ++ X)).isEmpty = false := by
    rw [List.isEmpty_eq_false_iff]; exact hp
  simp only [slotAdd, slotLabels, slotAbs, if_neg hc, hi, hi', storeVals, hg, appendVals, hnone, Except.map, slotPareto, hl, hemp,
    storePairs, hg0, appendPairs, hset, gt_iff_lt, and_self, if_true, Bool.false_eq_true, if_false, true_and]
  rw [List.getElem?_set_self (by omega)]
  simp [List.map_map, Function.comp_def]

/-! Examples -/

example : WellRouted ["ordinal", "abs"] := (C92_routing_iff _ (by decide)).2 (by decide)
example : ¬ WellRouted ["abs", "ordinal"] := fun h => by
  have := (C92_routing_iff _ (by decide)).1 h
  revert this; decide
/-- Two points rated 1 and 0, the first better in both coordinates, added to a new model. -/
example : (slotAdd true (SlotState.init ["ordinal", "abs", "relative_discrete"]) [fun _ : Fin 2 => (2 : Int), fun _ => 1] (.absVec [(1 : ℚ), 0])).2 =
    some .indexError :=
  (C92_half_added_false (SlotState.init ["ordinal", "abs", "relative_discrete"]) rfl (by simp [SlotState.init]) rfl _ [1, 0]
    (by norm_num) (by decide) (by decide)).1
example : WellRouted ["my_type"] := C92_new_names _ (by decide) (by decide)

end Lop.Props
