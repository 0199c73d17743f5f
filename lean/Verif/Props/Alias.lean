import Verif.Proofs.Alias
import Verif.Proofs.AliasValue
import Mathlib.Tactic.NormNum

/-! # C93: the training data of a model changes only through the model -/

namespace Lop.Props

open Lop Lop.Spec

variable {d : Nat} {α : Type*} [LinearOrder α] {R : Type*} [Field R] [LinearOrder R]

/-- C93 for the points, partial: once two `add` calls have been made since the last `reset`, nothing
the caller writes into its own arrays changes the model's points. Missing: the time before the second
call, see `C93_points_false`. -/
theorem C93_points_partial (h1 h2 h3 : List (AliasOp d α R)) (a b : Nat) (i j : AliasInput R)
    (ha : pointsAt (aliasRun h1).mem a ≠ none)
    (hb : pointsAt (aliasRun (h1 ++ .add a i :: h2)).mem b ≠ none)
    (hr2 : ∀ o ∈ h2, NotReset o) (hr3 : ∀ o ∈ h3, NotReset o) (x : Nat) (c : Cell d α) :
    let st := aliasRun (h1 ++ .add a i :: h2 ++ .add b j :: h3)
    (aliasWrite st x c).view.points = st.view.points := by
  intro st
  have hst : st = h3.foldl aliasExec (aliasAdd (aliasRun (h1 ++ .add a i :: h2)) b j).1 := by
    simp only [st, aliasRun, List.foldl_append, List.foldl_cons]
    rfl
  have hmid : aliasRun (h1 ++ .add a i :: h2) = h2.foldl aliasExec (aliasAdd (aliasRun h1) a i).1 := by
    simp only [aliasRun, List.foldl_append, List.foldl_cons]
    rfl
  have hX : (aliasRun (h1 ++ .add a i :: h2)).X ≠ none := by
    rw [hmid]
    exact fold_has _ _ hr2 (first_add_has _ _ _ ha)
  obtain ⟨p, hp, hown⟩ : OwnPoints st := by
    rw [hst]
    exact fold_own _ _ hr3 (add_own _ _ _ hX hb)
  obtain ⟨e1, _, _, _, _, _, e2⟩ := aliasWrite_facts st x c
  simp only [AliasState.view, e1, hp, Option.bind_some, pointsAt, e2 p hown]

/-- C93 for the labels, partial: as long as labels are passed as lists of pairs or vectors of ratings,
nothing the caller writes changes the model's labels. Missing: the formats that pass an array of
indices, see `C93_labels_false`. -/
theorem C93_labels_partial (ops : List (AliasOp d α R)) (hv : ∀ o ∈ ops, ByValue o) (x : Nat)
    (c : Cell d α) :
    let st := aliasRun ops
    (aliasWrite st x c).view.rel = st.view.rel ∧ (aliasWrite st x c).view.ord = st.view.ord ∧
      (aliasWrite st x c).view.abs = st.view.abs := by
  intro st
  have hown : ∀ (ops : List (AliasOp d α R)) (s : AliasState d α R), (∀ o ∈ ops, ByValue o) →
      OwnLabels s → OwnLabels (ops.foldl aliasExec s) := by
    intro ops
    induction ops with
    | nil => exact fun s _ h => h
    | cons o ops ih =>
      exact fun s ho h => ih _ (fun o h => ho o (List.mem_cons_of_mem _ h))
        (exec_ownLabels s o (ho o (by simp)) h)
  have h : OwnLabels st := hown ops {} hv ⟨fun b hb => by simp at hb, fun b hb => by simp at hb⟩
  obtain ⟨_, e1, e2, e3, _, _, e4⟩ := aliasWrite_facts st x c
  refine ⟨e1, ?_, ?_⟩
  · simp only [AliasState.view, e2]
    cases ho : st.ord with
    | none => rfl
    | some b => simp only [Option.bind_some, ordsAt, e4 b (h.1 b ho)]
  · simp only [AliasState.view, e3]
    cases ho : st.abs with
    | none => rfl
    | some b => simp only [Option.bind_some, idxsAt, e4 b.2 (h.2 b ho)]

private lemma write_eq (st : AliasState d α R) (a : Nat) (c0 c : Cell d α)
    (h : st.mem[a]? = some (true, c0)) (hs : c0.sameShape c = true) :
    aliasWrite st a c = { st with mem := st.mem.set a (true, c) } := by
  unfold aliasWrite
  rw [h]
  simp only [hs, if_true]

private lemma write_points (st : AliasState d α R) (a : Nat) (P Q : List (Fin d → α))
    (h : st.mem[a]? = some (true, .points P)) (hl : P.length = Q.length) :
    (aliasWrite st a (.points Q)).mem[a]? = some (true, .points Q) := by
  obtain ⟨hlt, _⟩ := List.getElem?_eq_some_iff.1 h
  rw [write_eq st a _ _ h (by simp [Cell.sameShape, hl])]
  exact List.getElem?_set_self hlt

private lemma caller_kept (st : AliasState d α R) (o : AliasOp d α R) (ho : NoData o) (a : Nat)
    (h : CallerPoints st a) : CallerPoints (aliasExec st o) a ∧ (aliasExec st o).X = st.X := by
  obtain ⟨P, hP⟩ := h
  obtain ⟨hlt, _⟩ := List.getElem?_eq_some_iff.1 hP
  cases o with
  | new c => exact ⟨⟨P, by simp only [aliasExec, aliasNew]; rw [List.getElem?_append_left hlt, hP]⟩, rfl⟩
  | write x c =>
    refine ⟨?_, (aliasWrite_facts st x c).1⟩
    simp only [aliasExec, aliasWrite]
    split
    · rename_i c0 h0
      split
      · rename_i hs
        by_cases hx : x = a
        · subst hx
          rw [hP] at h0
          obtain rfl : Cell.points P = c0 := by simpa using h0
          cases c with
          | points l => exact ⟨l, by simp [hlt]⟩
          | ords l => simp [Cell.sameShape] at hs
          | idxs l => simp [Cell.sameShape] at hs
        · exact ⟨P, by simp only; rw [List.getElem?_set_ne hx, hP]⟩
      · exact ⟨P, hP⟩
    · exact ⟨P, hP⟩
  | add a inp => exact ho.elim
  | reset => exact ho.elim
  | predict =>
    simp only [aliasExec, aliasPredict]
    split
    · exact ⟨⟨P, hP⟩, rfl⟩
    · split
      · exact ⟨⟨P, hP⟩, rfl⟩
      · exact ⟨⟨P, hP⟩, rfl⟩

/-- C93 is violated: from the first `add` (to an empty model) to the second the model's points *are*
the caller's array. Whatever the caller does in between, the model's points are what the array holds
now, and writing other values into it replaces the training points. -/
theorem C93_points_false (h1 h3 : List (AliasOp d α R)) (a : Nat) (i : AliasInput R)
    (hX : (aliasRun h1).X = none) (ha : CallerPoints (aliasRun h1) a) (h : ∀ o ∈ h3, NoData o) :
    let st := aliasRun (h1 ++ .add a i :: h3)
    (∃ P, st.mem[a]? = some (true, .points P) ∧ st.view.points = some P) ∧
      ∀ Q : List (Fin d → α), (st.view.points.getD []).length = Q.length →
        (aliasWrite st a (.points Q)).view.points = some Q := by
  intro st
  have hst : st = h3.foldl aliasExec (aliasAdd (aliasRun h1) a i).1 := by
    simp only [st, aliasRun, List.foldl_append, List.foldl_cons]
    rfl
  have hadd : CallerPoints (aliasAdd (aliasRun h1) a i).1 a ∧ (aliasAdd (aliasRun h1) a i).1.X = some a := by
    obtain ⟨P, hP⟩ := ha
    obtain ⟨hlt, _⟩ := List.getElem?_eq_some_iff.1 hP
    have hp : pointsAt (aliasRun h1).mem a = some P := by simp [pointsAt, hP]
    obtain ⟨e1, e, e2⟩ := aliasLabels_facts (aliasPoints (aliasRun h1) a P)
      (((aliasRun h1).X.bind (pointsAt (aliasRun h1).mem)).getD []).length i
    have hm : (aliasPoints (aliasRun h1) a P).mem = (aliasRun h1).mem := by simp [aliasPoints, hX]
    simp only [aliasAdd, hp]
    refine ⟨⟨P, ?_⟩, ?_⟩
    · rw [e2, hm, List.getElem?_append_left hlt, hP]
    · rw [e1]; simp [aliasPoints, hX]
  have hkeep : ∀ (ops : List (AliasOp d α R)) (s : AliasState d α R), (∀ o ∈ ops, NoData o) →
      CallerPoints s a → s.X = some a →
        CallerPoints (ops.foldl aliasExec s) a ∧ (ops.foldl aliasExec s).X = some a := by
    intro ops
    induction ops with
    | nil => exact fun s _ h1 h2 => ⟨h1, h2⟩
    | cons o ops ih =>
      intro s ho h1 h2
      obtain ⟨k1, k2⟩ := caller_kept s o (ho o (by simp)) a h1
      exact ih _ (fun o h => ho o (List.mem_cons_of_mem _ h)) k1 (k2.trans h2)
  obtain ⟨⟨P, hP⟩, hXa⟩ : CallerPoints st a ∧ st.X = some a := by
    rw [hst]
    exact hkeep h3 _ h hadd.1 hadd.2
  have hview : st.view.points = some P := by simp [AliasState.view, hXa, pointsAt, hP]
  refine ⟨⟨P, hP, hview⟩, fun Q hQ => ?_⟩
  rw [hview] at hQ
  have hw := write_points st a P Q hP hQ
  simp only [AliasState.view, (aliasWrite_facts st a _).1, hXa, Option.bind_some, pointsAt, hw]

/-- The consequence for predictions: after adding an array of points with some pairs, predicting, and
changing the array, the model counts as fitted, but the fit belongs to points it no longer has. -/
theorem C93_stale_fit_false (h1 : List (AliasOp d α R)) (a : Nat) (ps : List Pair)
    (P Q : List (Fin d → α)) (hX : (aliasRun h1).X = none)
    (ha : (aliasRun h1).mem[a]? = some (true, .points P)) (hl : P.length = Q.length) :
    let st := aliasRun (h1 ++ [.add a (.pairs ps), .predict, .write a (.points Q)])
    st.optimized = true ∧ st.fitted.bind (·.points) = some P ∧ st.view.points = some Q ∧
      aliasPredict st = st := by
  intro st
  have hst : st = aliasWrite (aliasPredict (aliasAdd (aliasRun h1) a (.pairs ps)).1) a (.points Q) := by
    simp only [st, aliasRun, List.foldl_append, List.foldl_cons, List.foldl_nil]
    rfl
  have hp : pointsAt (aliasRun h1).mem a = some P := by simp [pointsAt, ha]
  have hadd : (aliasAdd (aliasRun h1) a (.pairs ps)).1.X = some a ∧
      (aliasAdd (aliasRun h1) a (.pairs ps)).1.mem = (aliasRun h1).mem ∧
      (aliasAdd (aliasRun h1) a (.pairs ps)).1.optimized = false := by
    simp only [aliasAdd, hp, aliasLabels, aliasPoints, hX]
    by_cases hq : ps.isEmpty = true <;> simp [hq]
  obtain ⟨x1, x2, x3⟩ := hadd
  generalize (aliasAdd (aliasRun h1) a (.pairs ps)).1 = s at x1 x2 x3 hst
  have hpred : aliasPredict s = { s with fitted := some s.view, optimized := true } := by
    simp [aliasPredict, x1, x3]
  rw [hpred] at hst
  obtain ⟨f1, _, _, _, f2, f3, _⟩ :=
    aliasWrite_facts ({ s with fitted := some s.view, optimized := true }) a (.points Q)
  have hw := write_points ({ s with fitted := some s.view, optimized := true }) a P Q (by simp [x2, ha]) hl
  have ho : st.optimized = true := by rw [hst, f2]
  have hxx : st.X = some a := by rw [hst, f1, x1]
  refine ⟨ho, ?_, ?_, ?_⟩
  · rw [hst, f3]
    simp only [AliasState.view, x1, x2, Option.bind_some, hp]
  · have hm : st.mem[a]? = some (true, .points Q) := by rw [hst]; exact hw
    simp only [AliasState.view, hxx, Option.bind_some, pointsAt, hm]
  · simp [aliasPredict, hxx, ho]

/-- C93 is violated for labels passed by array: ordinals given as an (n,2) array are kept as views of
that array, so writing into it rewrites the ratings, even into values `add` would have refused. -/
theorem C93_labels_false (st : AliasState d α R) (a b : Nat) (l m : List (Int × Nat))
    (ho : st.ord = none) (hp : pointsAt st.mem a ≠ none) (hX : st.X = none)
    (hb : st.mem[b]? = some (true, .ords l)) (hpos : ∀ r ∈ l, 0 < r.1) (hl : l.length = m.length) :
    (aliasAdd st a (.ordinalMat b)).2 = none ∧
      (aliasWrite (aliasAdd st a (.ordinalMat b)).1 b (.ords m)).view.ord = some m := by
  obtain ⟨new, hnew⟩ := Option.ne_none_iff_exists'.1 hp
  obtain ⟨hlt, _⟩ := List.getElem?_eq_some_iff.1 hb
  have hn : ¬ (l.any fun r => decide (r.1 ≤ 0)) = true := by
    simp only [List.any_eq_true, decide_eq_true_eq, not_exists, not_and, not_le]
    exact hpos
  have h : aliasAdd st a (.ordinalMat b) = ({ st with X := some a, ord := some b, optimized := false }, none) := by
    have hob : ordsAt st.mem b = some l := by simp [ordsAt, hb]
    simp only [aliasAdd, hnew, aliasLabels, aliasPoints, hX, hob, aliasOrd, ho, if_neg hn]
  rw [h]
  refine ⟨rfl, ?_⟩
  rw [write_eq ({ st with X := some a, ord := some b, optimized := false } : AliasState d α R) b (.ords l)
    (.ords m) hb (by simp [Cell.sameShape, hl])]
  simp only [AliasState.view, Option.bind_some, ordsAt, List.getElem?_set_self hlt]

/-- C93 where the caller never writes into an array it has passed: the model's data, its fit and the outcome of the next
`add` are those of a model that copies everything, called with the content of the arrays at each call. -/
theorem C93_refines_copies (ops : List (AliasOp d α R)) (l : List (Op d α R)) (h : valueOps {} ops = some l) :
    let st := aliasRun ops
    let ms := run false {} l
    st.view.points = ms.X ∧ viewLabels st.view = ms.y ∧ st.optimized = ms.optimized ∧
      st.fitted.map (fun v => (v.points.getD [], viewLabels v)) = ms.fitted ∧
      ∀ a inp X i, pointsAt st.mem a = some X → valueInput st.mem inp = some i →
        (aliasAdd st a inp).2 = (exec false ms (.add X i)).2 := by
  intro st ms
  have h0 : Mirrors ({} : AliasState d α R) {} := ⟨trivial, rfl, trivial, trivial, rfl, rfl⟩
  have hm : Mirrors st ms := mirrors_run h0 ops h
  exact ⟨hm.view.1, hm.view.2, hm.opt, hm.fit, fun a inp X i hX hi => (mirrors_add hm hX hi).2⟩

/-- C93 refuted from scratch: whatever the program did before, if the model has no points, a caller who creates an array of points, adds it,
predicts and overwrites the array leaves the model with a fit of points it no longer has. -/
theorem C93_stale_history_false (h1 : List (AliasOp d α R)) (ps : List Pair) (P Q : List (Fin d → α)) (hX : (aliasRun h1).X = none)
    (hl : P.length = Q.length) :
    let a := (aliasRun h1).mem.length
    let st := aliasRun (h1 ++ [.new (.points P), .add a (.pairs ps), .predict, .write a (.points Q)])
    st.optimized = true ∧ st.fitted.bind (·.points) = some P ∧ st.view.points = some Q ∧ aliasPredict st = st := by
  intro a st
  have hn : aliasRun (h1 ++ [.new (.points P)]) = aliasNew (aliasRun h1) (.points P) := by
    simp only [aliasRun, List.foldl_append, List.foldl_cons, List.foldl_nil]
    rfl
  have h := C93_stale_fit_false (h1 ++ [.new (.points P)]) a ps P Q (by rw [hn]; exact hX)
    (by rw [hn]; simp [aliasNew, a]) hl
  rw [List.append_assoc] at h
  exact h

/-! Examples -/

example : ∃ l : List (Op 1 Int ℚ), l.length = 4 ∧
    valueOps {} [.new (.points [fun _ => 0, fun _ => 1]), .add 0 (.pairs [⟨1, 0, 1⟩]), .predict,
      .new (.idxs [1, 0]), .add 0 (.absTuple [1/2, 1] 1), .predict] = some l := ⟨_, rfl, rfl⟩

/-- A caller creates an array of two points and adds it. -/
def demoAlias : List (AliasOp 1 Int ℚ) := [.new (.points [fun _ => 0, fun _ => 1])]

example : (aliasRun demoAlias).X = none ∧ CallerPoints (aliasRun demoAlias) 0 := ⟨rfl, _, rfl⟩
example : (aliasRun (demoAlias ++ [.add 0 (.pairs [⟨1, 0, 1⟩]), .predict,
    .write 0 (.points [fun _ => 5, fun _ => 6])])).view.points = some [fun _ => 5, fun _ => 6] :=
  (C93_stale_fit_false demoAlias 0 [⟨1, 0, 1⟩] [fun _ => 0, fun _ => 1] [fun _ => 5, fun _ => 6]
    rfl rfl rfl).2.2.1
example : (pointsAt (aliasRun demoAlias).mem 0 ≠ none) ∧
    pointsAt (aliasRun (demoAlias ++ .add 0 (.pairs [⟨1, 0, 1⟩]) :: [])).mem 0 ≠ none := by
  constructor <;> decide +kernel
example : (aliasRun ([.new (.points [fun _ => 0]), .new (.ords [(2, 0)])] :
    List (AliasOp 1 Int ℚ))).mem[1]? = some (true, .ords [(2, 0)]) := rfl

end Lop.Props
