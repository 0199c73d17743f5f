import Verif.Model.Picture
import Verif.Spec.Data
import Verif.Spec.Pairs
import Verif.Proofs.Data
import Mathlib.Tactic.Linarith
import Mathlib.Tactic.Ring
import Mathlib.Tactic.NormNum
import Mathlib.Tactic.FinCases
import Mathlib.Data.Fin.VecNotation
import Mathlib.Algebra.Order.Field.Basic

/-! # C109: the recorded pictures -/

namespace Lop.Props

open Lop Lop.Spec

noncomputable section

variable {d : Nat} {R : Type*}

theorem zip_append_eq {A B : Type*} {a a' : List A} {b b' : List B} (h : a.length = b.length) :
    List.zip (a ++ a') (b ++ b') = List.zip a b ++ List.zip a' b' := List.zip_append h

theorem gridPts_cons (x : List ℝ) (b : ℝ) (y : List ℝ) : gridPts x (b :: y) = x.map (fun a => (a, b)) ++ gridPts x y := by
  unfold gridPts
  simp only [List.map_cons, List.flatten_cons]
  rw [zip_append_eq (by simp)]
  congr 1
  induction x with
  | nil => rfl
  | cons a x ih => simpa using ih

theorem gridPts_length (x y : List ℝ) : (gridPts x y).length = y.length * x.length := by
  induction y with
  | nil => simp [gridPts]
  | cons b y ih => rw [gridPts_cons]; simp [ih]; ring

theorem reshape_rows (x : List ℝ) (f : ℝ × ℝ → ℝ) : ∀ (y : List ℝ),
    ((List.range y.length).map fun i => (((gridPts x y).map f).drop (i * x.length)).take x.length)
      = y.map fun b => x.map fun a => f (a, b) := by
  intro y
  induction y with
  | nil => rfl
  | cons b y ih =>
    rw [List.length_cons, List.range_succ_eq_map, List.map_cons, List.map_map, List.map_cons, gridPts_cons, List.map_append]
    congr 1
    · rw [Nat.zero_mul, List.drop_zero, List.take_append_of_le_length (by simp), List.take_of_length_le (by simp), List.map_map]
      rfl
    · rw [← ih]
      apply List.map_congr_left
      intro i _
      simp only [Function.comp]
      have : (i + 1) * x.length = ((x.map fun a => (a, b)).map f).length + i * x.length := by simp; ring
      rw [this, List.drop_append, List.drop_eq_nil_of_le (by omega), List.nil_append, Nat.add_sub_cancel_left]

/-- C109, the maps: the value drawn in row `i`, column `j` is the one predicted for the point `(x_j, y_i)` where it is drawn, for
every grid of equally many coordinates. -/
theorem C109_grid (x y : List ℝ) (n : Nat) (hx : x.length = n) (hy : y.length = n) (f : ℝ × ℝ → ℝ) :
    ∃ Z, reshapeSquare n ((gridPts x y).map f) = .ok Z ∧ Z.length = n ∧
      ∀ (i j : Nat) (a b : ℝ), x[j]? = some a → y[i]? = some b → ∃ row, Z[i]? = some row ∧ row[j]? = some (f (a, b)) := by
  refine ⟨y.map fun b => x.map fun a => f (a, b), ?_, by simpa using hy, ?_⟩
  · unfold reshapeSquare
    rw [if_pos (by rw [List.length_map, gridPts_length, hx, hy])]
    have := reshape_rows x f y
    rw [hy, hx] at this
    rw [this]
  · intro i j a b ha hb
    exact ⟨x.map fun a => f (a, b), by simp [hb], by simp [ha]⟩

/-- A grid of two by two points: the first coordinate changes along the rows. -/
example : reshapeSquare 2 ((gridPts [1, 2] [30, 40]).map fun p => p.1 + p.2) = .ok [[1 + 30, 2 + 30], [1 + 40, 2 + 40]] := rfl

/-- C109, the true utility: it is drawn on a scale where the largest absolute value is one, unless it is zero everywhere, in
which case there are no numbers. -/
theorem C109_scale (v : List ℝ) (hv : v ≠ []) :
    ((∀ a ∈ v, a = 0) → scaleFake v = .ok (v.map fun _ => none)) ∧
    ((∃ a ∈ v, a ≠ 0) → ∃ m, 0 < m ∧ scaleFake v = .ok (v.map fun a => some (a / m)) ∧ (∀ a ∈ v, |a / m| ≤ 1) ∧
      ∃ a ∈ v, |a / m| = 1) := by
  obtain ⟨m, hm⟩ : ∃ m, (v.map fun a => |a|).max? = some m := by
    cases hh : (v.map fun a => |a|).max? with
    | none => rw [List.max?_eq_none_iff] at hh; simp at hh; exact absurd hh hv
    | some m => exact ⟨m, rfl⟩
  obtain ⟨hmem, hle⟩ := List.max?_eq_some_iff.1 hm
  obtain ⟨a0, ha0, hma⟩ := List.mem_map.1 hmem
  constructor
  · intro h
    have : m = 0 := by rw [← hma, h a0 ha0, abs_zero]
    unfold scaleFake
    rw [hm]
    simp [this]
  · rintro ⟨c, hc, hc0⟩
    have hpos : 0 < m := lt_of_lt_of_le (abs_pos.2 hc0) (hle _ (List.mem_map_of_mem hc))
    refine ⟨m, hpos, ?_, ?_, a0, ha0, ?_⟩
    · unfold scaleFake
      rw [hm]
      simp [hpos.ne']
    · intro a ha
      rw [abs_div, abs_of_pos hpos, div_le_one hpos]
      exact hle _ (List.mem_map_of_mem ha)
    · rw [abs_div, abs_of_pos hpos, hma, div_self hpos.ne']

/-- Utilities -4 and 2 are drawn as -1 and 1/2. -/
example : ∃ m : ℝ, 0 < m ∧ scaleFake [-4, 2] = .ok ([-4, 2].map fun a => some (a / m)) := by
  obtain ⟨m, h1, h2, _⟩ := (C109_scale [-4, 2] (by simp)).2 ⟨2, by simp, by norm_num⟩
  exact ⟨m, h1, h2⟩

theorem arrowLoop_spec (X : List (Fin d → ℝ)) : ∀ ps : List Pair, (∀ p ∈ ps, p.u < X.length ∧ p.v < X.length) →
    ∃ as, arrowLoop X ps = .ok as ∧ as.length = ps.length ∧
      ∀ (j : Nat) p a, ps[j]? = some p → as[j]? = some a → X[loser p]? = some a.start ∧ X[winner p]? = some a.stop ∧
        ∀ k, a.head k = a.tail k + (a.stop k - a.start k) / 1000 := by
  intro ps
  induction ps with
  | nil => intro _; exact ⟨[], rfl, rfl, by simp⟩
  | cons p ps ih =>
    intro h
    obtain ⟨as, h1, h2, h3⟩ := ih (fun q hq => h q (by simp [hq]))
    have hu := (h p (by simp)).1
    have hv := (h p (by simp)).2
    have hdk : getDkScalar (1 : Int) 0 = -1 := by decide
    have hlo : loser p < X.length := by unfold loser; split <;> assumption
    have hwi : winner p < X.length := by unfold winner; split <;> assumption
    have ha : arrowOf X p = .ok
        { start := X[loser p], stop := X[winner p], tail := fun k => X[loser p] k + (X[winner p] k - X[loser p] k) * (1 / 2),
          head := fun k => X[loser p] k + (X[winner p] k - X[loser p] k) * (1 / 2 + 1 / 1000) } := by
      unfold arrowOf
      rw [hdk]
      change (match X[loser p]?, X[winner p]? with | some s, some l => _ | _, _ => _) = _
      rw [List.getElem?_eq_getElem hlo, List.getElem?_eq_getElem hwi]
    refine ⟨_ :: as, by simp only [arrowLoop, ha, h1]; rfl, by simp [h2], ?_⟩
    intro j q a hq hj
    cases j with
    | zero =>
      simp only [List.getElem?_cons_zero, Option.some.injEq] at hq hj
      subst hq hj
      refine ⟨List.getElem?_eq_getElem hlo, List.getElem?_eq_getElem hwi, fun k => ?_⟩
      simp only
      ring
    | succ j =>
      simp only [List.getElem?_cons_succ] at hq hj
      exact h3 j q a hq hj

/-- C109, the arrows: in every state whose stored indices are in range there is one arrow per stored preference, on the line from
the worse to the preferred point and pointing to the preferred one. -/
theorem C109_arrows (st : ModelState d ℝ R) (ps : List Pair) (X : List (Fin d → ℝ)) (hX : st.X = some X) (hy : st.y.rel = some ps)
    (hr : ∀ p ∈ ps, p.u < X.length ∧ p.v < X.length) :
    ∃ as, arrows st = .ok as ∧ as.length = ps.length ∧
      ∀ (j : Nat) p a, ps[j]? = some p → as[j]? = some a → X[loser p]? = some a.start ∧ X[winner p]? = some a.stop ∧
        ∀ k, a.head k = a.tail k + (a.stop k - a.start k) / 1000 := by
  unfold arrows
  rw [hy, hX]
  cases ps with
  | nil => exact ⟨[], rfl, rfl, by simp⟩
  | cons p ps => exact arrowLoop_spec X (p :: ps) hr

variable [Field R] [LinearOrder R]

theorem shownPts_later (pareto : Bool) (st : ModelState d ℝ R) (b : Nat) (X : List (Fin d → ℝ)) (hX : st.X = some X)
    (later : List (List (Fin d → ℝ) × AddInput R)) :
    (st.prior = some (0, (b : Int)) → X.length = b →
      shownPts (later.foldl (fun s x => (modelAdd pareto s x.1 x.2).1) st) = later.flatMap (·.1)) ∧
    (st.prior = none → shownPts (later.foldl (fun s x => (modelAdd pareto s x.1 x.2).1) st) = X ++ later.flatMap (·.1)) := by
  have key : ∀ (later : List (List (Fin d → ℝ) × AddInput R)) (st : ModelState d ℝ R) (X : List (Fin d → ℝ)), st.X = some X →
      (later.foldl (fun s x => (modelAdd pareto s x.1 x.2).1) st).X = some (X ++ later.flatMap (·.1)) ∧
      (later.foldl (fun s x => (modelAdd pareto s x.1 x.2).1) st).prior = st.prior := by
    intro later
    induction later with
    | nil => intro st X h; simp [h]
    | cons x xs ih =>
      intro st X h
      obtain ⟨h1, h2⟩ := modelAdd_X_prior pareto st x.1 x.2
      obtain ⟨h3, h4⟩ := ih _ (X ++ x.1) (by rw [h1, h]; rfl)
      rw [List.foldl_cons, List.flatMap_cons, h3, h4, h2]
      simp
  obtain ⟨h1, h2⟩ := key later st X hX
  constructor
  · intro hp hb
    unfold shownPts shownFrom
    rw [h1, h2, hp]
    simp only
    rw [if_neg (by omega), Int.toNat_natCast, ← hb, List.drop_left]
  · intro hp
    unfold shownPts shownFrom
    rw [h1, h2, hp]
    simp

theorem addPrior_first (pts : List (Fin d → ℝ)) (h : (addPrior true ({} : ModelState d ℝ R) pts).2 = none) :
    ∃ X, (addPrior true ({} : ModelState d ℝ R) pts).1.X = some X ∧
      (addPrior true ({} : ModelState d ℝ R) pts).1.prior = some (0, (X.length : Int)) := by
  unfold addPrior at h ⊢
  simp only [Bool.true_eq_false, if_false] at h ⊢
  obtain ⟨h1, h2⟩ := modelAdd_X_prior true
    ({ ({} : ModelState d ℝ R) with prior := some (((({} : ModelState d ℝ R).X.getD []).length), (((({} : ModelState d ℝ R).X.getD []).length + pts.length : Nat) : Int)) }) pts (.pairs [])
  cases hm : (modelAdd true ({ ({} : ModelState d ℝ R) with prior := some (((({} : ModelState d ℝ R).X.getD []).length), (((({} : ModelState d ℝ R).X.getD []).length + pts.length : Nat) : Int)) }) pts (.pairs [])) with
  | mk st e =>
    rw [hm] at h h1 h2
    simp only at h h1 h2 ⊢
    cases e with
    | some e => simp at h
    | none =>
      simp only at h ⊢
      unfold removeUnreferenced at h ⊢
      rw [h1] at h ⊢
      simp only at h ⊢
      cases hrel : st.y.rel with
      | none => rw [hrel] at h; simp at h
      | some ps =>
        rw [hrel] at h
        simp only at h ⊢
        split at h
        · simp at h
        · rename_i hcond
          rw [if_neg hcond]
          simp only [h2]
          refine ⟨_, rfl, ?_⟩
          simp only [Option.some.injEq, Prod.mk.injEq]
          refine ⟨by simp, ?_⟩
          have hle := List.length_filter_le (fun q : (Fin d → ℝ) × Nat => referenced ps q.2) (List.zipIdx (Option.getD (none : Option (List (Fin d → ℝ))) [] ++ pts))
          simp at hle ⊢
          omega

/-- C109, the points: after a prior was added to a new model and more data after it, the points drawn are exactly those added after
the prior, in order; without a prior all points are drawn. Missing: points added before the prior
(`C109_points_counterexample`). -/
theorem C109_points_partial (pareto : Bool) (pts : List (Fin d → ℝ)) (later : List (List (Fin d → ℝ) × AddInput R)) :
    ((addPrior true ({} : ModelState d ℝ R) pts).2 = none →
      shownPts (later.foldl (fun s x => (modelAdd pareto s x.1 x.2).1) (addPrior true ({} : ModelState d ℝ R) pts).1)
        = later.flatMap (·.1)) ∧
    shownPts (later.foldl (fun s x => (modelAdd pareto s x.1 x.2).1) ({} : ModelState d ℝ R)) = later.flatMap (·.1) := by
  constructor
  · intro h
    obtain ⟨X, h1, h2⟩ := addPrior_first pts h
    exact (shownPts_later pareto _ X.length X h1 later).1 h2 rfl
  · cases later with
    | nil => rfl
    | cons x xs =>
      obtain ⟨h1, h2⟩ := modelAdd_X_prior pareto ({} : ModelState d ℝ R) x.1 x.2
      rw [List.foldl_cons, (shownPts_later pareto _ 0 _ h1 xs).2 (by rw [h2])]
      simp

/-- Two prior points of which one dominates the other can be added to a new model. -/
example : (addPrior true ({} : ModelState 2 Int ℚ) [![1, 1], ![2, 2]]).2 = none := by decide +kernel

/-- C109 fails for points added before the prior: a pair was added, then a prior of two points; all four points are stored, none of
the pair is drawn. -/
theorem C109_points_counterexample :
    ∃ st : ModelState 2 Int ℚ, st = (addPrior true (modelAdd true {} [![3, 0], ![0, 3]] (.pairs [⟨-1, 0, 1⟩])).1 [![1, 1], ![2, 2]]).1 ∧
      st.X = some [![3, 0], ![0, 3], ![1, 1], ![2, 2]] ∧ shownPts st = [] :=
  ⟨_, rfl, by decide +kernel, by decide +kernel⟩

/-- A preference for the second point: the arrow goes from the first to the second. -/
example : ∃ as, arrows ({ X := some [![0], ![2]], y := { rel := some [⟨1, 0, 1⟩] } } : ModelState 1 ℝ ℚ) = .ok as ∧ as.length = 1 ∧
    ∀ a ∈ as, a.start = ![0] ∧ a.stop = ![2] := by
  refine ⟨_, rfl, rfl, ?_⟩
  intro a ha
  simp at ha
  subst ha
  exact ⟨rfl, rfl⟩

/-- C109, what is refused: values that do not fill the square, a true utility without values, preferences without points, and a
preference about a point that is not stored. -/
theorem C109_errors (n : Nat) (v : List ℝ) (st : ModelState d ℝ R) (p : Pair) (ps : List Pair) :
    (v.length ≠ n * n → reshapeSquare n v = .error .valueError) ∧ scaleFake [] = .error .valueError ∧
    (st.y.rel = some (p :: ps) → st.X = none → arrows st = .error .typeError) ∧
    (∀ X, st.y.rel = some (p :: ps) → st.X = some X → (X.length ≤ p.u ∨ X.length ≤ p.v) → arrows st = .error .indexError) := by
  refine ⟨fun h => if_neg h, rfl, fun h h' => ?_, fun X h h' hp => ?_⟩
  · rw [arrows, h, h']
  · rw [arrows, h, h']
    have : arrowOf X p = .error .indexError := by
      unfold arrowOf
      simp only
      split_ifs
      · rcases hp with hp | hp
        · rw [List.getElem?_eq_none hp]; split <;> simp_all
        · rw [List.getElem?_eq_none hp]
      · rcases hp with hp | hp
        · rw [List.getElem?_eq_none hp]
        · rw [List.getElem?_eq_none hp]; split <;> simp_all
    simp [arrowLoop, this]

/-- C109, the points in any state: the last points are drawn, from the end of the recorded prior on; a negative end counts from the
end of the points, as everywhere in Python. -/
theorem C109_shown (st : ModelState d ℝ R) (X : List (Fin d → ℝ)) (hX : st.X = some X) (a : Nat) (b : Int) (hb : st.prior = some (a, b)) :
    shownPts st <:+ X ∧ ((shownPts st).length : Int) = if 0 ≤ b then max 0 (X.length - b) else min (-b) X.length := by
  unfold shownPts shownFrom
  rw [hX, hb]
  simp only
  split_ifs with h1 h2 h2
  · omega
  · refine ⟨List.drop_suffix _ _, ?_⟩
    rw [List.length_drop]; omega
  · refine ⟨List.drop_suffix _ _, ?_⟩
    rw [List.length_drop]; omega
  · omega

/-- The end of the prior is two before the end of three points. -/
example : ({ X := some [![1], ![2], ![3]], prior := some (0, -2) } : ModelState 1 ℝ ℚ).prior = some (0, -2) := rfl

end

end Lop.Props
