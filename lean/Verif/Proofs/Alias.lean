import Verif.Spec.Alias

/-! # Lemmas on shared arrays -/

namespace Lop

open Lop.Spec

variable {d : Nat} {α : Type*} [LinearOrder α] {R : Type*} [Field R] [LinearOrder R]

/-- Address `b` holds an array the model created. -/
def OwnAt (m : Mem d α) (b : Nat) : Prop := ∃ c, m[b]? = some (false, c)

omit [LinearOrder α] in
lemma OwnAt.append {m : Mem d α} {b : Nat} (h : OwnAt m b) (e : Mem d α) : OwnAt (m ++ e) b := by
  obtain ⟨c, hc⟩ := h
  obtain ⟨hlt, _⟩ := List.getElem?_eq_some_iff.1 hc
  exact ⟨c, by rw [List.getElem?_append_left hlt, hc]⟩

omit [LinearOrder α] in
lemma OwnAt.last (m : Mem d α) (c : Cell d α) (e : Mem d α) : OwnAt (m ++ [(false, c)] ++ e) m.length :=
  ⟨c, by simp⟩

omit [LinearOrder α] in
lemma OwnAt.last' (m : Mem d α) (c : Cell d α) : OwnAt (m ++ [(false, c)]) m.length :=
  ⟨c, by simp⟩

omit [LinearOrder α] [Field R] [LinearOrder R] in
/-- Writing does not touch the model's fields or arrays the model created. -/
lemma aliasWrite_facts (st : AliasState d α R) (a : Nat) (c : Cell d α) :
    (aliasWrite st a c).X = st.X ∧ (aliasWrite st a c).rel = st.rel ∧ (aliasWrite st a c).ord = st.ord ∧
      (aliasWrite st a c).abs = st.abs ∧ (aliasWrite st a c).optimized = st.optimized ∧
      (aliasWrite st a c).fitted = st.fitted ∧
      ∀ b, OwnAt st.mem b → (aliasWrite st a c).mem[b]? = st.mem[b]? := by
  unfold aliasWrite
  split
  · rename_i c0 h0
    split
    · refine ⟨rfl, rfl, rfl, rfl, rfl, rfl, ?_⟩
      rintro b ⟨c', hb⟩
      have hne : a ≠ b := by
        rintro rfl
        rw [h0] at hb
        simp at hb
      exact List.getElem?_set_ne hne
    · exact ⟨rfl, rfl, rfl, rfl, rfl, rfl, fun _ _ => rfl⟩
  · exact ⟨rfl, rfl, rfl, rfl, rfl, rfl, fun _ _ => rfl⟩

lemma aliasOrd_facts (st : AliasState d α R) (a : Nat) (l : List (Int × Nat)) :
    (aliasOrd st a l).1.X = st.X ∧ (aliasOrd st a l).1.abs = st.abs ∧
      (∃ e, (aliasOrd st a l).1.mem = st.mem ++ e) ∧
      ((∀ b, st.ord = some b → OwnAt st.mem b) → OwnAt st.mem a →
        ∀ b, (aliasOrd st a l).1.ord = some b → OwnAt (aliasOrd st a l).1.mem b) := by
  unfold aliasOrd
  split
  · exact ⟨rfl, rfl, ⟨[], by simp⟩, fun h _ => h⟩
  · split
    · refine ⟨rfl, rfl, ⟨[], by simp⟩, fun _ ha b hb => ?_⟩
      obtain rfl : a = b := by simpa using hb
      exact ha
    · refine ⟨rfl, rfl, ⟨_, rfl⟩, fun _ _ b hb => ?_⟩
      obtain rfl : st.mem.length = b := by simpa using hb
      exact OwnAt.last' _ _

lemma aliasAbs_facts (st : AliasState d α R) (v : List R) (a : Nat) (l : List Nat) :
    (aliasAbs st v a l).1.X = st.X ∧ (aliasAbs st v a l).1.ord = st.ord ∧
      (∃ e, (aliasAbs st v a l).1.mem = st.mem ++ e) ∧
      ((∀ b, st.abs = some b → OwnAt st.mem b.2) → OwnAt st.mem a →
        ∀ b, (aliasAbs st v a l).1.abs = some b → OwnAt (aliasAbs st v a l).1.mem b.2) := by
  unfold aliasAbs
  split
  · exact ⟨rfl, rfl, ⟨[], by simp⟩, fun h _ => h⟩
  · split
    · refine ⟨rfl, rfl, ⟨[], by simp⟩, fun _ ha b hb => ?_⟩
      obtain rfl : _ = b := by simpa using hb
      exact ha
    · refine ⟨rfl, rfl, ⟨_, rfl⟩, fun _ _ b hb => ?_⟩
      obtain rfl : _ = b := by simpa using hb
      exact OwnAt.last' _ _

lemma aliasLabels_facts (st : AliasState d α R) (n : Nat) (inp : AliasInput R) :
    (aliasLabels st n inp).1.X = st.X ∧ ∃ e, (aliasLabels st n inp).1.mem = st.mem ++ e := by
  cases inp with
  | pairs ps =>
    simp only [aliasLabels]
    generalize (if n > 0 then ps.map (fun p => (⟨p.dk, p.u + n, p.v + n⟩ : Pair)) else ps) = qs
    split <;> exact ⟨rfl, [], by simp⟩
  | ordinalVec v =>
    simp only [aliasLabels]
    obtain ⟨h1, _, ⟨e, he⟩, _⟩ := aliasOrd_facts
      { st with mem := st.mem ++ [(false, .ords (v.zipIdx.map fun (x : Int × Nat) => (x.1, x.2 + n)))] }
      st.mem.length (v.zipIdx.map fun (x : Int × Nat) => (x.1, x.2 + n))
    exact ⟨h1, _, by rw [he, List.append_assoc]⟩
  | ordinalMat a =>
    simp only [aliasLabels]
    split
    · obtain ⟨h1, _, h2, _⟩ := aliasOrd_facts st a _
      exact ⟨h1, h2⟩
    · exact ⟨rfl, [], by simp⟩
  | absVec v =>
    simp only [aliasLabels]
    obtain ⟨h1, _, ⟨e, he⟩, _⟩ := aliasAbs_facts
      { st with mem := st.mem ++ [(false, .idxs ((List.range v.length).map (· + n)))] }
      v st.mem.length ((List.range v.length).map (· + n))
    exact ⟨h1, _, by rw [he, List.append_assoc]⟩
  | absTuple v a =>
    simp only [aliasLabels]
    split
    · obtain ⟨h1, _, h2, _⟩ := aliasAbs_facts st v a _
      exact ⟨h1, h2⟩
    · exact ⟨rfl, [], by simp⟩

/-- The model's points are in an array of its own. -/
def OwnPoints (st : AliasState d α R) : Prop := ∃ b, st.X = some b ∧ OwnAt st.mem b

/-- The model's ratings are in arrays of its own. -/
def OwnLabels (st : AliasState d α R) : Prop :=
  (∀ b, st.ord = some b → OwnAt st.mem b) ∧ ∀ b, st.abs = some b → OwnAt st.mem b.2

lemma add_own (st : AliasState d α R) (a : Nat) (inp : AliasInput R) (hX : st.X ≠ none)
    (hp : pointsAt st.mem a ≠ none) : OwnPoints (aliasAdd st a inp).1 := by
  obtain ⟨b, hb⟩ := Option.ne_none_iff_exists'.1 hX
  obtain ⟨new, hnew⟩ := Option.ne_none_iff_exists'.1 hp
  simp only [aliasAdd, hnew]
  obtain ⟨h1, e, he⟩ := aliasLabels_facts (aliasPoints st a new)
    ((st.X.bind (pointsAt st.mem)).getD []).length inp
  refine ⟨st.mem.length, ?_, ?_⟩
  · rw [h1]; simp [aliasPoints, hb]
  · rw [he]
    simp only [aliasPoints, hb]
    exact OwnAt.last _ _ _

lemma exec_has (st : AliasState d α R) (o : AliasOp d α R) (ho : NotReset o) (hX : st.X ≠ none) :
    (aliasExec st o).X ≠ none := by
  cases o with
  | new c => exact hX
  | write a c => simpa [aliasExec, (aliasWrite_facts st a c).1] using hX
  | add a inp =>
    by_cases hp : pointsAt st.mem a = none
    · simpa [aliasExec, aliasAdd, hp] using hX
    · obtain ⟨b, hb, _⟩ := add_own st a inp hX hp
      simp [aliasExec, hb]
  | reset => exact ho.elim
  | predict =>
    simp only [aliasExec, aliasPredict]
    split
    · exact hX
    · split
      · exact hX
      · exact hX

lemma exec_own (st : AliasState d α R) (o : AliasOp d α R) (ho : NotReset o) (h : OwnPoints st) :
    OwnPoints (aliasExec st o) := by
  obtain ⟨b, hb, hm⟩ := h
  cases o with
  | new c => exact ⟨b, hb, hm.append _⟩
  | write a c =>
    obtain ⟨h1, _, _, _, _, _, h2⟩ := aliasWrite_facts st a c
    refine ⟨b, h1.trans hb, ?_⟩
    obtain ⟨c', hc'⟩ := hm
    exact ⟨c', (h2 b ⟨c', hc'⟩).trans hc'⟩
  | add a inp =>
    by_cases hp : pointsAt st.mem a = none
    · exact ⟨b, by simp [aliasExec, aliasAdd, hp, hb], by simpa [aliasExec, aliasAdd, hp] using hm⟩
    · exact add_own st a inp (by simp [hb]) hp
  | reset => exact ho.elim
  | predict =>
    simp only [aliasExec, aliasPredict, hb]
    split
    · exact ⟨b, hb, hm⟩
    · exact ⟨b, rfl, hm⟩

lemma fold_has (ops : List (AliasOp d α R)) (st : AliasState d α R) (ho : ∀ o ∈ ops, NotReset o)
    (hX : st.X ≠ none) : (ops.foldl aliasExec st).X ≠ none := by
  induction ops generalizing st with
  | nil => exact hX
  | cons o ops ih =>
    exact ih _ (fun o h => ho o (List.mem_cons_of_mem _ h)) (exec_has st o (ho o (by simp)) hX)

lemma fold_own (ops : List (AliasOp d α R)) (st : AliasState d α R) (ho : ∀ o ∈ ops, NotReset o)
    (h : OwnPoints st) : OwnPoints (ops.foldl aliasExec st) := by
  induction ops generalizing st with
  | nil => exact h
  | cons o ops ih =>
    exact ih _ (fun o h => ho o (List.mem_cons_of_mem _ h)) (exec_own st o (ho o (by simp)) h)

lemma first_add_has (st : AliasState d α R) (a : Nat) (inp : AliasInput R)
    (hp : pointsAt st.mem a ≠ none) : (aliasAdd st a inp).1.X ≠ none := by
  obtain ⟨new, hnew⟩ := Option.ne_none_iff_exists'.1 hp
  simp only [aliasAdd, hnew]
  obtain ⟨h1, _⟩ := aliasLabels_facts (aliasPoints st a new)
    ((st.X.bind (pointsAt st.mem)).getD []).length inp
  rw [h1]
  unfold aliasPoints
  split <;> simp

lemma add_ownLabels (st : AliasState d α R) (a : Nat) (inp : AliasInput R)
    (hv : ByValue (.add a inp : AliasOp d α R)) (h : OwnLabels st) :
    OwnLabels (aliasAdd st a inp).1 := by
  unfold aliasAdd
  split
  · exact h
  · rename_i new _
    have hp : OwnLabels (aliasPoints st a new) := by
      unfold aliasPoints
      split
      · exact h
      · exact ⟨fun b hb => (h.1 b hb).append _, fun b hb => (h.2 b hb).append _⟩
    generalize aliasPoints st a new = s at hp
    generalize ((st.X.bind (pointsAt st.mem)).getD []).length = n
    cases inp with
    | pairs ps =>
      simp only [aliasLabels]
      generalize (if n > 0 then ps.map (fun p => (⟨p.dk, p.u + n, p.v + n⟩ : Pair)) else ps) = qs
      split <;> exact hp
    | ordinalMat b => exact hv.elim
    | absTuple v b => exact hv.elim
    | ordinalVec v =>
      simp only [aliasLabels]
      obtain ⟨_, h2, ⟨e, he⟩, h3⟩ := aliasOrd_facts
        { s with mem := s.mem ++ [(false, .ords (v.zipIdx.map fun (x : Int × Nat) => (x.1, x.2 + n)))] }
        s.mem.length (v.zipIdx.map fun (x : Int × Nat) => (x.1, x.2 + n))
      refine ⟨h3 (fun b hb => (hp.1 b hb).append _) (OwnAt.last' _ _), fun b hb => ?_⟩
      rw [h2] at hb
      rw [he]
      exact ((hp.2 b hb).append _).append _
    | absVec v =>
      simp only [aliasLabels]
      obtain ⟨_, h2, ⟨e, he⟩, h3⟩ := aliasAbs_facts
        { s with mem := s.mem ++ [(false, .idxs ((List.range v.length).map (· + n)))] }
        v s.mem.length ((List.range v.length).map (· + n))
      refine ⟨fun b hb => ?_, h3 (fun b hb => (hp.2 b hb).append _) (OwnAt.last' _ _)⟩
      rw [h2] at hb
      rw [he]
      exact ((hp.1 b hb).append _).append _

lemma exec_ownLabels (st : AliasState d α R) (o : AliasOp d α R) (ho : ByValue o) (h : OwnLabels st) :
    OwnLabels (aliasExec st o) := by
  cases o with
  | new c => exact ⟨fun b hb => (h.1 b hb).append _, fun b hb => (h.2 b hb).append _⟩
  | write a c =>
    obtain ⟨_, _, h1, h2, _, _, h3⟩ := aliasWrite_facts st a c
    refine ⟨fun b hb => ?_, fun b hb => ?_⟩
    · obtain ⟨c', hc'⟩ := h.1 b (h1 ▸ hb)
      exact ⟨c', (h3 b ⟨c', hc'⟩).trans hc'⟩
    · obtain ⟨c', hc'⟩ := h.2 b (h2 ▸ hb)
      exact ⟨c', (h3 b.2 ⟨c', hc'⟩).trans hc'⟩
  | add a inp => exact add_ownLabels st a inp ho h
  | reset => exact ⟨fun b hb => by simp [aliasExec, aliasReset] at hb,
      fun b hb => by simp [aliasExec, aliasReset] at hb⟩
  | predict =>
    simp only [aliasExec, aliasPredict]
    split
    · exact h
    · split
      · exact h
      · exact h

end Lop
