import Verif.Spec.Alias
import Mathlib.Data.List.Basic

/-! # Arrays by reference against arrays by value -/

namespace Lop

open Spec

variable {d : Nat} {α : Type*} [LinearOrder α] {R : Type*} [Field R] [LinearOrder R]

theorem pointsAt_append {m : Mem d α} {a : Nat} {l : List (Fin d → α)} (h : pointsAt m a = some l) (e : Mem d α) :
    pointsAt (m ++ e) a = some l := by
  unfold pointsAt at h ⊢
  have : a < m.length := by
    by_contra hc
    rw [List.getElem?_eq_none (not_lt.1 hc)] at h
    simp at h
  rw [List.getElem?_append_left this]
  exact h

theorem ordsAt_append {m : Mem d α} {a : Nat} {l : List (Int × Nat)} (h : ordsAt m a = some l) (e : Mem d α) :
    ordsAt (m ++ e) a = some l := by
  unfold ordsAt at h ⊢
  have : a < m.length := by
    by_contra hc
    rw [List.getElem?_eq_none (not_lt.1 hc)] at h
    simp at h
  rw [List.getElem?_append_left this]
  exact h

theorem idxsAt_append {m : Mem d α} {a : Nat} {l : List Nat} (h : idxsAt m a = some l) (e : Mem d α) :
    idxsAt (m ++ e) a = some l := by
  unfold idxsAt at h ⊢
  have : a < m.length := by
    by_contra hc
    rw [List.getElem?_eq_none (not_lt.1 hc)] at h
    simp at h
  rw [List.getElem?_append_left this]
  exact h

theorem pointsAt_new (m : Mem d α) (b : Bool) (l : List (Fin d → α)) :
    pointsAt (m ++ [(b, .points l)]) m.length = some l := by simp [pointsAt]

theorem ordsAt_new (m : Mem d α) (b : Bool) (l : List (Int × Nat)) :
    ordsAt (m ++ [(b, .ords l)]) m.length = some l := by simp [ordsAt]

theorem idxsAt_new (m : Mem d α) (b : Bool) (l : List Nat) :
    idxsAt (m ++ [(b, .idxs l)]) m.length = some l := by simp [idxsAt]

/-- The array an optional address holds. -/
def Holds {β : Type*} (at_ : Nat → Option β) (a : Option Nat) (x : Option β) : Prop :=
  match a, x with
  | none, none => True
  | some a, some l => at_ a = some l
  | _, _ => False

/-- The state with references holds the data of the state with values. -/
structure Mirrors (st : AliasState d α R) (ms : ModelState d α R) : Prop where
  X : Holds (pointsAt st.mem) st.X ms.X
  rel : st.rel = ms.y.rel
  ord : Holds (ordsAt st.mem) st.ord ms.y.ord
  abs : match st.abs, ms.y.abs with
    | none, none => True
    | some (v, a), some w => ∃ l, idxsAt st.mem a = some l ∧ l.length = v.length ∧ w = v.zip l
    | _, _ => False
  opt : st.optimized = ms.optimized
  fit : st.fitted.map (fun v => (v.points.getD [], viewLabels v)) = ms.fitted

theorem holds_append {β : Type*} {f g : Nat → Option β} (h : ∀ a l, f a = some l → g a = some l) {a : Option Nat}
    {x : Option β} (hh : Holds f a x) : Holds g a x := by
  cases a <;> cases x <;> simp_all [Holds]

theorem holds_bind {β : Type*} {f : Nat → Option β} {a : Option Nat} {x : Option β} (h : Holds f a x) : a.bind f = x := by
  cases a <;> cases x <;> simp_all [Holds]

/-- Allocating arrays keeps the data. -/
theorem Mirrors.grow {st : AliasState d α R} {ms : ModelState d α R} (h : Mirrors st ms) (e : Mem d α) :
    Mirrors { st with mem := st.mem ++ e } ms where
  X := holds_append (fun _ _ h => pointsAt_append h e) h.X
  rel := h.rel
  ord := holds_append (fun _ _ h => ordsAt_append h e) h.ord
  abs := by
    have := h.abs
    revert this
    cases st.abs with
    | none => cases ms.y.abs <;> simp
    | some p => cases ms.y.abs with
      | none => simp
      | some w =>
        rintro ⟨l, h1, h2⟩
        exact ⟨l, idxsAt_append h1 e, h2⟩
  opt := h.opt
  fit := h.fit

theorem Mirrors.view {st : AliasState d α R} {ms : ModelState d α R} (h : Mirrors st ms) :
    st.view.points = ms.X ∧ viewLabels st.view = ms.y := by
  refine ⟨holds_bind h.X, ?_⟩
  have h1 : st.view.rel = ms.y.rel := h.rel
  have h2 : st.view.ord = ms.y.ord := holds_bind h.ord
  have h3 : (st.view.abs.map fun e => e.1.zip e.2) = ms.y.abs := by
    have := h.abs
    revert this
    simp only [AliasState.view]
    cases st.abs with
    | none => cases ms.y.abs <;> simp
    | some p => cases ms.y.abs with
      | none => simp
      | some w =>
        rintro ⟨l, e1, e2, rfl⟩
        simp [e1]
  unfold viewLabels
  rw [h1, h2, h3]

theorem mirrors_ord {st : AliasState d α R} {ms : ModelState d α R} (h : Mirrors st ms) {a : Nat} {l : List (Int × Nat)}
    (hl : ordsAt st.mem a = some l) :
    (match addOrd ms.y l with
      | .error e => (ms, some e)
      | .ok none => (ms, none)
      | .ok (some y) => ({ ms with y := y, optimized := false }, none)).2 = (aliasOrd st a l).2 ∧
    Mirrors (aliasOrd st a l).1 (match addOrd ms.y l with
      | .error e => (ms, some e)
      | .ok none => (ms, none)
      | .ok (some y) => (({ ms with y := y, optimized := false } : ModelState d α R), none)).1 := by
  unfold addOrd aliasOrd
  by_cases hc : (l.any fun r => decide (r.1 ≤ 0)) = true
  · simp only [hc, if_true]
    exact ⟨trivial, h⟩
  · simp only [hc, Bool.false_eq_true, if_false]
    have ho := h.ord
    cases e1 : st.ord with
    | none =>
      rw [e1] at ho
      cases e2 : ms.y.ord with
      | some x => rw [e2] at ho; exact ho.elim
      | none =>
        refine ⟨rfl, h.X, h.rel, ?_, h.abs, rfl, h.fit⟩
        simpa [Holds, appendOpt] using hl
    | some b =>
      rw [e1] at ho
      cases e2 : ms.y.ord with
      | none => rw [e2] at ho; exact ho.elim
      | some x =>
        rw [e2] at ho
        have hg := h.grow [(false, .ords ((ordsAt st.mem b).getD [] ++ l))]
        refine ⟨rfl, hg.X, hg.rel, ?_, hg.abs, rfl, hg.fit⟩
        have hb : ordsAt st.mem b = some x := ho
        simp only [Holds, appendOpt, hb, Option.getD_some]
        exact ordsAt_new _ _ _

theorem zip_any_left {v : List R} {l : List Nat} (h : l.length = v.length) (p : R → Bool) :
    ((v.zip l).any fun r => p r.1) = v.any p := by
  have : (v.zip l).map Prod.fst = v := List.map_fst_zip (by omega)
  conv_rhs => rw [← this]
  rw [List.any_map]
  rfl

theorem mirrors_abs {st : AliasState d α R} {ms : ModelState d α R} (h : Mirrors st ms) {a : Nat} {v : List R}
    {l : List Nat} (hl : idxsAt st.mem a = some l) (hlen : l.length = v.length) :
    (match addAbs ms.y (v.zip l) with
      | .error e => (ms, some e)
      | .ok none => (ms, none)
      | .ok (some y) => ({ ms with y := y, optimized := false }, none)).2 = (aliasAbs st v a l).2 ∧
    Mirrors (aliasAbs st v a l).1 (match addAbs ms.y (v.zip l) with
      | .error e => (ms, some e)
      | .ok none => (ms, none)
      | .ok (some y) => (({ ms with y := y, optimized := false } : ModelState d α R), none)).1 := by
  unfold addAbs aliasAbs
  rw [zip_any_left hlen (fun r => decide (r < 0)), zip_any_left hlen (fun r => decide (r > 1))]
  have hmap : ((v.zip l).map fun r => (clampRating r.1, r.2)) = (v.map clampRating).zip l := by
    rw [List.zip_map_left]
    rfl
  by_cases hc : (v.any fun r => decide (r < 0)) = true ∨ (v.any fun r => decide (r > 1)) = true
  · simp only [hc, if_true]
    exact ⟨trivial, h⟩
  · simp only [hc, if_false]
    have ha := h.abs
    cases e1 : st.abs with
    | none =>
      rw [e1] at ha
      cases e2 : ms.y.abs with
      | some x => rw [e2] at ha; exact ha.elim
      | none =>
        refine ⟨rfl, h.X, h.rel, h.ord, ?_, rfl, h.fit⟩
        simp only [appendOpt, Option.getD_none, List.nil_append, hmap]
        exact ⟨l, hl, by simpa using hlen, rfl⟩
    | some p =>
      obtain ⟨w, b⟩ := p
      rw [e1] at ha
      cases e2 : ms.y.abs with
      | none => rw [e2] at ha; exact ha.elim
      | some x =>
        rw [e2] at ha
        obtain ⟨l0, h1, h2, rfl⟩ := ha
        have hg := h.grow [(false, .idxs ((idxsAt st.mem b).getD [] ++ l))]
        refine ⟨rfl, hg.X, hg.rel, hg.ord, ?_, rfl, hg.fit⟩
        simp only [appendOpt, Option.getD_some, h1, hmap]
        refine ⟨l0 ++ l, idxsAt_new _ _ _, by simp [h2, hlen], ?_⟩
        rw [List.zip_append h2.symm]

/-- The points part of `add`. -/
theorem mirrors_points {st : AliasState d α R} {ms : ModelState d α R} (h : Mirrors st ms) {a : Nat}
    {new : List (Fin d → α)} (hn : pointsAt st.mem a = some new) :
    Mirrors (aliasPoints st a new) { ms with X := some (ms.X.getD [] ++ new) } ∧
      ∃ e, (aliasPoints st a new).mem = st.mem ++ e := by
  unfold aliasPoints
  have hX := h.X
  cases e1 : st.X with
  | none =>
    rw [e1] at hX
    cases e2 : ms.X with
    | some x => rw [e2] at hX; exact hX.elim
    | none =>
      refine ⟨⟨?_, h.rel, h.ord, h.abs, h.opt, h.fit⟩, [], by simp⟩
      simpa [Holds] using hn
  | some b =>
    rw [e1] at hX
    cases e2 : ms.X with
    | none => rw [e2] at hX; exact hX.elim
    | some x =>
      rw [e2] at hX
      have hb : pointsAt st.mem b = some x := hX
      have hg := h.grow [(false, .points ((pointsAt st.mem b).getD [] ++ new))]
      refine ⟨⟨?_, hg.rel, hg.ord, hg.abs, hg.opt, hg.fit⟩, _, rfl⟩
      simp only [Holds, hb, Option.getD_some]
      exact pointsAt_new _ _ _

theorem mirrors_add {st : AliasState d α R} {ms : ModelState d α R} (h : Mirrors st ms) {a : Nat} {inp : AliasInput R}
    {X : List (Fin d → α)} {i : AddInput R} (hX : pointsAt st.mem a = some X) (hi : valueInput st.mem inp = some i) :
    Mirrors (aliasAdd st a inp).1 (modelAdd false ms X i).1 ∧ (aliasAdd st a inp).2 = (modelAdd false ms X i).2 := by
  obtain ⟨hp, e, hmem⟩ := mirrors_points h hX
  have hlen : ((st.X.bind (pointsAt st.mem)).getD []).length = (ms.X.getD []).length := by rw [holds_bind h.X]
  simp only [aliasAdd, hX, hlen, modelAdd, Bool.false_eq_true, false_and, if_false]
  set n := (ms.X.getD []).length
  generalize hst : aliasPoints st a X = st1 at *
  have hms : ({ ms with X := some (ms.X.getD [] ++ X) } : ModelState d α R).y = ms.y := rfl
  cases inp with
  | pairs ps =>
    simp only [valueInput, Option.some.injEq] at hi
    subst hi
    simp only [aliasLabels, addLabels]
    split_ifs with h1 h2
    · exact ⟨⟨hp.X, hp.rel, hp.ord, hp.abs, rfl, hp.fit⟩, rfl⟩
    · refine ⟨⟨hp.X, ?_, hp.ord, hp.abs, rfl, hp.fit⟩, rfl⟩
      rw [hp.rel]
    · exact ⟨⟨hp.X, hp.rel, hp.ord, hp.abs, rfl, hp.fit⟩, rfl⟩
    · refine ⟨⟨hp.X, ?_, hp.ord, hp.abs, rfl, hp.fit⟩, rfl⟩
      rw [hp.rel]
  | ordinalVec v =>
    simp only [valueInput, Option.some.injEq] at hi
    subst hi
    have hg := hp.grow [(false, .ords (v.zipIdx.map fun (a, i) => (a, i + n)))]
    obtain ⟨g1, g2⟩ := mirrors_ord hg (ordsAt_new st1.mem false (v.zipIdx.map fun (a, i) => (a, i + n)))
    exact ⟨g2, g1.symm⟩
  | ordinalMat b =>
    simp only [valueInput] at hi
    cases hb : ordsAt st.mem b with
    | none => rw [hb] at hi; simp at hi
    | some l =>
      rw [hb] at hi
      simp only [Option.map_some, Option.some.injEq] at hi
      subst hi
      have hb1 : ordsAt st1.mem b = some l := by rw [hmem]; exact ordsAt_append hb e
      obtain ⟨g1, g2⟩ := mirrors_ord hp hb1
      simp only [aliasLabels, hb1]
      exact ⟨g2, g1.symm⟩
  | absVec v =>
    simp only [valueInput, Option.some.injEq] at hi
    subst hi
    have hg := hp.grow [(false, .idxs ((List.range v.length).map (· + n)))]
    have hz : (v.zipIdx.map fun (a, i) => (a, i + n)) = v.zip ((List.range v.length).map (· + n)) := by
      rw [List.zipIdx_eq_zip_range', ← List.range_eq_range', List.zip_map_right]
      rfl
    obtain ⟨g1, g2⟩ := mirrors_abs (v := v) hg (idxsAt_new st1.mem false ((List.range v.length).map (· + n))) (by simp)
    rw [← hz] at g1 g2
    exact ⟨g2, g1.symm⟩
  | absTuple v b =>
    simp only [valueInput] at hi
    cases hb : idxsAt st.mem b with
    | none => rw [hb] at hi; simp at hi
    | some l =>
      rw [hb] at hi
      simp only [Option.bind_some] at hi
      split_ifs at hi with hl
      simp only [Option.some.injEq] at hi
      subst hi
      have hb1 : idxsAt st1.mem b = some l := by rw [hmem]; exact idxsAt_append hb e
      obtain ⟨g1, g2⟩ := mirrors_abs (v := v) hp hb1 hl
      simp only [aliasLabels, hb1]
      exact ⟨g2, g1.symm⟩

theorem mirrors_predict {st : AliasState d α R} {ms : ModelState d α R} (h : Mirrors st ms) :
    Mirrors (aliasPredict st) (modelPredict ms).1 := by
  have hX := h.X
  unfold aliasPredict modelPredict
  cases e1 : st.X with
  | none =>
    rw [e1] at hX
    cases e2 : ms.X with
    | some x => rw [e2] at hX; exact hX.elim
    | none => exact h
  | some b =>
    rw [e1] at hX
    cases e2 : ms.X with
    | none => rw [e2] at hX; exact hX.elim
    | some x =>
      simp only [← h.opt]
      by_cases ho : st.optimized = true
      · simp only [ho, if_true]
        exact h
      · obtain ⟨v1, v2⟩ := h.view
        simp only [ho, Bool.false_eq_true, if_false, modelOptimize, e2]
        refine ⟨?_, h.rel, h.ord, h.abs, rfl, ?_⟩
        · rw [e2] at hX
          exact hX
        · simp only [Option.map_some, v1, v2, e2, Option.getD_some]

theorem mirrors_exec {st : AliasState d α R} {ms : ModelState d α R} (h : Mirrors st ms) {o : AliasOp d α R}
    {l : List (Op d α R)} (ho : valueOp st.mem o = some l) : Mirrors (aliasExec st o) (run false ms l) := by
  cases o with
  | new c =>
    simp only [valueOp, Option.some.injEq] at ho
    subst ho
    exact h.grow _
  | write a c => simp [valueOp] at ho
  | add a inp =>
    simp only [valueOp] at ho
    cases hX : pointsAt st.mem a with
    | none => rw [hX] at ho; simp at ho
    | some X => cases hi : valueInput st.mem inp with
      | none => rw [hX, hi] at ho; simp at ho
      | some i =>
        rw [hX, hi] at ho
        simp only [Option.some.injEq] at ho
        subst ho
        exact (mirrors_add h hX hi).1
  | reset =>
    simp only [valueOp, Option.some.injEq] at ho
    subst ho
    exact ⟨trivial, rfl, trivial, trivial, h.opt, h.fit⟩
  | predict =>
    simp only [valueOp, Option.some.injEq] at ho
    subst ho
    exact mirrors_predict h

theorem mirrors_run {st : AliasState d α R} {ms : ModelState d α R} (h : Mirrors st ms) (os : List (AliasOp d α R))
    {l : List (Op d α R)} (ho : valueOps st os = some l) : Mirrors (os.foldl aliasExec st) (run false ms l) := by
  induction os generalizing st ms l with
  | nil =>
    simp only [valueOps, Option.some.injEq] at ho
    subst ho
    exact h
  | cons o os ih =>
    simp only [valueOps] at ho
    cases h1 : valueOp st.mem o with
    | none => rw [h1] at ho; simp at ho
    | some a => cases h2 : valueOps (aliasExec st o) os with
      | none => rw [h1, h2] at ho; simp at ho
      | some b =>
        rw [h1, h2] at ho
        simp only [Option.some.injEq] at ho
        subst ho
        have := ih (mirrors_exec h h1) h2
        rw [List.foldl_cons, run, List.foldl_append]
        exact this

end Lop
