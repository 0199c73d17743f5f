import Verif.Spec.LabelSlots

/-! # Lemmas on the label containers -/

namespace Lop

open Lop.Spec

variable {d : Nat} {α : Type*} [LinearOrder α] {R : Type*} [Field R] [LinearOrder R]

lemma dictGet_cons (e : String × Nat) (m : List (String × Nat)) (k : String) :
    dictGet (e :: m) k = if e.1 = k then some e.2 else dictGet m k := by
  by_cases h : e.1 = k <;> simp [dictGet, h]

lemma dictGet_append (m : List (String × Nat)) (k k' : String) (v : Nat)
    (h : ∀ e ∈ m, e.1 ≠ k) :
    dictGet (m ++ [(k, v)]) k' = if k' = k then some v else dictGet m k' := by
  induction m with
  | nil =>
    rw [List.nil_append, dictGet_cons]
    by_cases hk : k' = k
    · simp [hk]
    · rw [if_neg (fun h => hk h.symm), if_neg hk]
  | cons e m ih =>
    rw [List.cons_append, dictGet_cons, ih fun e he => h e (List.mem_cons_of_mem _ he), dictGet_cons]
    by_cases hk : k' = k
    · subst hk
      rw [if_neg (h e (by simp)), if_pos rfl, if_pos rfl]
    · rw [if_neg hk, if_neg hk]

lemma dictGet_map (m : List (String × Nat)) (k k' : String) (v : Nat) (h : ∃ e ∈ m, e.1 = k) :
    dictGet (m.map fun e => if e.1 = k then (k, v) else e) k' =
      if k' = k then some v else dictGet m k' := by
  have hne : ∀ m : List (String × Nat), k' ≠ k →
      dictGet (m.map fun e => if e.1 = k then (k, v) else e) k' = dictGet m k' := by
    intro m hk
    induction m with
    | nil => rfl
    | cons e m ih =>
      rw [List.map_cons, dictGet_cons, dictGet_cons, ih]
      by_cases he : e.1 = k
      · have h1 : ¬ k = k' := fun h => hk h.symm
        simp [he, h1]
      · simp [he]
  by_cases hk : k' = k
  · subst hk
    rw [if_pos rfl]
    induction m with
    | nil => simp at h
    | cons e m ih =>
      rw [List.map_cons, dictGet_cons]
      by_cases he : e.1 = k'
      · simp [he]
      · have h' : ∃ e ∈ m, e.1 = k' := by
          obtain ⟨e', h1, h2⟩ := h
          rcases List.mem_cons.1 h1 with rfl | h1
          · exact absurd h2 he
          · exact ⟨e', h1, h2⟩
        rw [ih h']
        simp [he]
  · rw [if_neg hk, hne m hk]

lemma dictGet_dictSet (m : List (String × Nat)) (k k' : String) (v : Nat) :
    dictGet (dictSet m k v) k' = if k' = k then some v else dictGet m k' := by
  unfold dictSet
  by_cases h : ∃ e ∈ m, e.1 = k
  · have : (m.any fun e => decide (e.1 = k)) = true := by simpa using h
    rw [if_pos this, dictGet_map m k k' v h]
  · have : ¬ (m.any fun e => decide (e.1 = k)) = true := by simpa using h
    rw [if_neg this]
    exact dictGet_append m k k' v fun e he hk => h ⟨e, he, hk⟩

lemma dictSet_length (m : List (String × Nat)) (k : String) (v : Nat) :
    m.length ≤ (dictSet m k v).length := by
  unfold dictSet
  split <;> simp

lemma dictGet_fold (l : List String) (i : Nat) (m : List (String × Nat)) (k : String)
    (hl : l.Nodup) :
    dictGet ((l.zipIdx i).foldl (fun m e => dictSet m e.1 e.2) m) k =
      if k ∈ l then some (i + l.idxOf k) else dictGet m k := by
  induction l generalizing i m with
  | nil => simp
  | cons a l ih =>
    rw [List.zipIdx_cons, List.foldl_cons, ih _ _ (List.nodup_cons.1 hl).2]
    have ha := (List.nodup_cons.1 hl).1
    by_cases hk : k ∈ l
    · have hne : a ≠ k := fun h => ha (h ▸ hk)
      rw [if_pos hk, if_pos (List.mem_cons_of_mem _ hk), List.idxOf_cons_ne _ hne]
      congr 1; omega
    · rw [if_neg hk, dictGet_dictSet]
      by_cases hka : k = a
      · subst hka; simp
      · simp [hka, hk]

lemma probitIdxs_get (other : List String) (h : other.Nodup) (k : String) :
    dictGet (probitIdxs other) k =
      if k ∈ other then some (1 + other.idxOf k) else dictGet defaultIdxs k :=
  dictGet_fold other 1 _ k h

lemma fold_length (l : List (String × Nat)) (m : List (String × Nat)) :
    m.length ≤ (l.foldl (fun m e => dictSet m e.1 e.2) m).length := by
  induction l generalizing m with
  | nil => simp
  | cons e l ih => exact le_trans (dictSet_length _ _ _) (ih _)

lemma probitIdxs_length (other : List String) : 3 ≤ (probitIdxs other).length :=
  fold_length _ defaultIdxs

lemma wellRouted_idx {other : List String} (h : WellRouted other) :
    dictGet (probitIdxs other) "relative_discrete" = some 0 ∧
      dictGet (probitIdxs other) "ordinal" = some 1 ∧ dictGet (probitIdxs other) "abs" = some 2 := by
  have h1 := h ("relative_discrete", .pairwise) (by simp [ownProbit])
  have h2 := h ("ordinal", .ordinal) (by simp [ownProbit])
  have h3 := h ("abs", .rating) (by simp [ownProbit])
  simp only [scoringProbit, Option.bind_eq_some_iff] at h1 h2 h3
  obtain ⟨i, hi, hi'⟩ := h1
  obtain ⟨j, hj, hj'⟩ := h2
  obtain ⟨k, hk, hk'⟩ := h3
  refine ⟨hi.trans ?_, hj.trans ?_, hk.trans ?_⟩
  · match i, hi' with
    | 0, _ => rfl
    | 1, h => simp [modelProbits] at h
    | 2, h => simp [modelProbits] at h
    | n + 3, h => simp [modelProbits] at h
  · match j, hj' with
    | 0, h => simp [modelProbits] at h
    | 1, _ => rfl
    | 2, h => simp [modelProbits] at h
    | n + 3, h => simp [modelProbits] at h
  · match k, hk' with
    | 0, h => simp [modelProbits] at h
    | 1, h => simp [modelProbits] at h
    | 2, _ => rfl
    | n + 3, h => simp [modelProbits] at h

/-- Three label containers, side by side in the two representations. -/
structure SameLabels (slots : List (Option (Slot R))) (y : Labels R) : Prop where
  len : 3 ≤ slots.length
  rel : slots[0]? = some (y.rel.map .pairs)
  ord : slots[1]? = some (y.ord.map fun l => .vals (l.map fun r => (.inl r.1, r.2)))
  abs : slots[2]? = some (y.abs.map fun l => .vals (l.map fun r => (.inr r.1, r.2)))

omit [Field R] [LinearOrder R] in
lemma storePairs_same {idxs : List (String × Nat)} (hi : dictGet idxs "relative_discrete" = some 0)
    {slots : List (Option (Slot R))} {y : Labels R} (h : SameLabels slots y) (ps : List Pair) :
    ∃ s', storePairs idxs slots ps = .ok s' ∧ SameLabels s' { y with rel := appendOpt y.rel ps } := by
  have hlen := h.len
  refine ⟨slots.set 0 (some (.pairs (y.rel.getD [] ++ ps))), ?_, ?_, ?_, ?_, ?_⟩
  · unfold storePairs appendPairs
    rw [hi]
    simp only [h.rel]
    cases y.rel <;> simp
  · simpa using hlen
  · rw [List.getElem?_set_self (by omega)]; rfl
  · rw [List.getElem?_set_ne (by omega)]; exact h.ord
  · rw [List.getElem?_set_ne (by omega)]; exact h.abs

omit [Field R] [LinearOrder R] in
lemma storeOrd_same {idxs : List (String × Nat)} (hi : dictGet idxs "ordinal" = some 1)
    {slots : List (Option (Slot R))} {y : Labels R} (h : SameLabels slots y) (vs : List (Int × Nat)) :
    ∃ s', storeVals idxs slots "ordinal" (vs.map fun r => (.inl r.1, r.2)) = .ok s' ∧
      SameLabels s' { y with ord := appendOpt y.ord vs } := by
  have hlen := h.len
  refine ⟨slots.set 1 (some (.vals ((y.ord.getD [] ++ vs).map fun r => (.inl r.1, r.2)))),
    ?_, ?_, ?_, ?_, ?_⟩
  · unfold storeVals appendVals
    rw [hi]
    simp only [h.ord]
    cases y.ord <;> simp
  · simpa using hlen
  · rw [List.getElem?_set_ne (by omega)]; exact h.rel
  · rw [List.getElem?_set_self (by omega)]; rfl
  · rw [List.getElem?_set_ne (by omega)]; exact h.abs

omit [Field R] [LinearOrder R] in
lemma storeAbs_same {idxs : List (String × Nat)} (hi : dictGet idxs "abs" = some 2)
    {slots : List (Option (Slot R))} {y : Labels R} (h : SameLabels slots y) (vs : List (R × Nat)) :
    ∃ s', storeVals idxs slots "abs" (vs.map fun r => (.inr r.1, r.2)) = .ok s' ∧
      SameLabels s' { y with abs := appendOpt y.abs vs } := by
  have hlen := h.len
  refine ⟨slots.set 2 (some (.vals ((y.abs.getD [] ++ vs).map fun r => (.inr r.1, r.2)))),
    ?_, ?_, ?_, ?_, ?_⟩
  · unfold storeVals appendVals
    rw [hi]
    simp only [h.abs]
    cases y.abs <;> simp
  · simpa using hlen
  · rw [List.getElem?_set_ne (by omega)]; exact h.rel
  · rw [List.getElem?_set_ne (by omega)]; exact h.ord
  · rw [List.getElem?_set_self (by omega)]; rfl

/-- Two results of the label part agree. -/
def SameResult : Except PyErr (Option (List (Option (Slot R)))) → Except PyErr (Option (Labels R)) → Prop
  | .error e, .error e' => e = e'
  | .ok none, .ok none => True
  | .ok (some s), .ok (some y) => SameLabels s y
  | _, _ => False

omit [Field R] [LinearOrder R] in
lemma slotOrd_same {idxs : List (String × Nat)} (hi : dictGet idxs "ordinal" = some 1)
    {slots : List (Option (Slot R))} {y : Labels R} (h : SameLabels slots y) (vs : List (Int × Nat)) :
    SameResult ((slotOrd idxs slots vs).map some) (addOrd y vs) := by
  unfold slotOrd addOrd
  split
  · rfl
  · obtain ⟨s', h1, h2⟩ := storeOrd_same hi h vs
    rw [h1]
    exact h2

lemma slotAbs_same {idxs : List (String × Nat)} (hi : dictGet idxs "abs" = some 2)
    {slots : List (Option (Slot R))} {y : Labels R} (h : SameLabels slots y) (vs : List (R × Nat)) :
    SameResult ((slotAbs idxs slots vs).map some) (addAbs y vs) := by
  unfold slotAbs addAbs
  split
  · rfl
  · obtain ⟨s', h1, h2⟩ := storeAbs_same hi h (vs.map fun r => (clampRating r.1, r.2))
    have h3 : (vs.map fun r => ((.inr (clampRating r.1) : Int ⊕ R), r.2)) =
        (vs.map fun r => (clampRating r.1, r.2)).map fun r => (.inr r.1, r.2) := by
      simp [List.map_map, Function.comp_def]
    rw [h3, h1]
    exact h2

lemma slotLabels_same {other : List String} (hw : WellRouted other)
    {slots : List (Option (Slot R))} {y : Labels R} (h : SameLabels slots y) (lenX : Nat)
    (inp : AddInput R) :
    SameResult (slotLabels (probitIdxs other) slots lenX inp) (addLabels y lenX inp) := by
  obtain ⟨h0, h1, h2⟩ := wellRouted_idx hw
  cases inp with
  | pairs ps =>
    simp only [slotLabels, addLabels]
    generalize (if lenX > 0 then ps.map (fun p => (⟨p.dk, p.u + lenX, p.v + lenX⟩ : Pair)) else ps) = qs
    cases hq : qs.isEmpty
    · obtain ⟨s', e1, e2⟩ := storePairs_same h0 h qs
      simp only [Bool.false_eq_true, if_false]
      rw [e1]
      exact e2
    · simp only [if_true]
      exact h
  | ordinalVec v => exact slotOrd_same h1 h _
  | ordinalMat m => exact slotOrd_same h1 h _
  | absVec v => exact slotAbs_same h2 h _
  | absTuple v => exact slotAbs_same h2 h _
  | absOther => trivial
  | otherType => exact h

lemma slotAdd_same {other : List String} (hw : WellRouted other) (pareto : Bool)
    (st : SlotState d α R) (ms : ModelState d α R) (hi : st.idxs = probitIdxs other)
    (hX : st.X = ms.X) (h : SameLabels st.slots ms.y) (X : List (Fin d → α)) (inp : AddInput R) :
    (slotAdd pareto st X inp).1.idxs = probitIdxs other ∧
      (slotAdd pareto st X inp).1.X = (modelAdd pareto ms X inp).1.X ∧
      SameLabels (slotAdd pareto st X inp).1.slots (modelAdd pareto ms X inp).1.y ∧
      (slotAdd pareto st X inp).2 = (modelAdd pareto ms X inp).2 := by
  have hl := slotLabels_same hw h (ms.X.getD []).length inp
  unfold slotAdd modelAdd
  simp only [hX, hi]
  generalize hA : slotLabels (probitIdxs other) st.slots (ms.X.getD []).length inp = A at hl
  generalize hB : addLabels ms.y (ms.X.getD []).length inp = B at hl
  rcases A with e | _ | s <;> rcases B with e' | _ | y <;> try exact hl.elim
  · obtain rfl : e = e' := hl
    exact ⟨rfl, rfl, h, rfl⟩
  · exact ⟨rfl, rfl, h, rfl⟩
  · have hs : SameLabels s y := hl
    unfold slotPareto
    by_cases hp : pareto = true ∧ (ms.X.getD [] ++ X).length > 1
    · simp only [if_pos hp]
      cases hq : (paretoPairs (ms.X.getD []).length X (ms.X.getD [] ++ X)).isEmpty
      · obtain ⟨s', e1, e2⟩ := storePairs_same (wellRouted_idx hw).1 hs
          (paretoPairs (ms.X.getD []).length X (ms.X.getD [] ++ X))
        simp only [Bool.false_eq_true, if_false, e1]
        exact ⟨trivial, trivial, e2, trivial⟩
      · simp only [if_true]
        exact ⟨trivial, trivial, hs, trivial⟩
    · simp only [if_neg hp]
      exact ⟨trivial, trivial, hs, trivial⟩

end Lop
