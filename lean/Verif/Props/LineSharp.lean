import Verif.Props.Optim

/-! # C28, C29: the bound for concave objectives is sharp; exactly when the grid search gives up -/

namespace Lop.Props

open Lop Lop.Spec

private theorem binarySearch_falling {R S : Type*} [Field R] [LinearOrder R] [IsStrictOrderedRing R] [LinearOrder S]
    (g : R → S) (itr : Nat) : ∀ (mn mx : R), mn < mx → (∀ x y, mn ≤ x → x < y → y ≤ mx → g y < g x) →
      binarySearch g itr mn mx = mn + (mx - mn) / 2 ^ itr / 2 := by
  induction itr with
  | zero => intro mn mx _ _; simp only [binarySearch, binaryLoop]; ring
  | succ n ih =>
    intro mn mx h hg
    have h1 : g ((mx - mn) * (3 / 4) + mn) < g ((mx - mn) * (1 / 4) + mn) :=
      hg _ _ (by linarith) (by linarith) (by linarith)
    have h2 : binarySearch g (n + 1) mn mx = binarySearch g n mn ((mx - mn) * (1 / 2) + mn) := by
      simp only [binarySearch, binaryLoop]
      rw [if_pos h1]
    rw [h2, ih _ _ (by linarith) fun x y hx hxy hy => hg x y hx hxy (by linarith)]
    rw [pow_succ]
    field_simp
    ring

/-- C28: the bound of `C28_concave_partial` cannot be improved: for every range, every number of iterations but zero and
every margin there is a concave objective with a single maximiser from which the search ends a quarter of the initial
range plus half the final interval away, up to the margin. -/
theorem C28_concave_sharp {R : Type*} [Field R] [LinearOrder R] [IsStrictOrderedRing R] (itr : Nat) (hi : itr ≠ 0)
    (mn mx : R) (h : mn < mx) (margin : R) (hm : 0 < margin) :
    ∃ (g : R → R) (m : R), ConcaveOn R (Set.Icc mn mx) g ∧ (∀ x, IsMaxOn g mn mx x ↔ x = m) ∧
      (mx - mn) / 4 + (mx - mn) / 2 ^ itr / 2 - margin ≤ |binarySearch g itr mn mx - m| := by
  obtain ⟨w, hw⟩ : ∃ w, w = mx - mn := ⟨_, rfl⟩
  have hw0 : 0 < w := by linarith
  obtain ⟨e, he0, he1, he2⟩ : ∃ e, 0 < e ∧ e ≤ margin ∧ e < w / 4 := by
    refine ⟨min margin (w / 8), lt_min hm (by linarith), min_le_left _ _, (min_le_right _ _).trans_lt (by linarith)⟩
  obtain ⟨m, hmdef⟩ : ∃ m, m = mn + w / 4 + e := ⟨_, rfl⟩
  obtain ⟨A, hA⟩ : ∃ A, A = w / e := ⟨_, rfl⟩
  have hA0 : 0 < A := by rw [hA]; positivity
  have hAe : A * e = w := by rw [hA]; field_simp
  obtain ⟨g, hg⟩ : ∃ g : R → R, g = fun x => min (A * (x - m)) (m - x) := ⟨_, rfl⟩
  have hright : ∀ x, m ≤ x → g x = m - x := by
    intro x hx
    rw [hg]
    refine min_eq_right ?_
    have : 0 ≤ A * (x - m) := mul_nonneg hA0.le (by linarith)
    linarith
  have hle : ∀ x, g x ≤ 0 ∧ (g x = 0 → x = m) := by
    intro x
    rw [hg]
    rcases lt_trichotomy x m with hx | hx | hx
    · have h1 : A * (x - m) < 0 := mul_neg_of_pos_of_neg hA0 (by linarith)
      have h2 : min (A * (x - m)) (m - x) < 0 := (min_le_left _ _).trans_lt h1
      exact ⟨h2.le, fun h3 => absurd h3 h2.ne⟩
    · subst hx; simp
    · have h2 : min (A * (x - m)) (m - x) < 0 := (min_le_right _ _).trans_lt (by linarith)
      exact ⟨h2.le, fun h3 => absurd h3 h2.ne⟩
  have hgm : g m = 0 := by rw [hright m le_rfl]; ring
  refine ⟨g, m, ?_, ?_, ?_⟩
  · rw [hg]
    refine ConcaveOn.inf ⟨convex_Icc _ _, ?_⟩ ⟨convex_Icc _ _, ?_⟩
    · intro x _ y _ a b _ _ hab
      simp only [smul_eq_mul]
      apply le_of_eq
      have : b = 1 - a := by linarith
      subst this; ring
    · intro x _ y _ a b _ _ hab
      simp only [smul_eq_mul]
      apply le_of_eq
      have : b = 1 - a := by linarith
      subst this; ring
  · intro x
    constructor
    · intro hx
      have h1 := hx.2.2 m (by linarith) (by linarith)
      rw [hgm] at h1
      exact (hle x).2 (le_antisymm (hle x).1 h1)
    · rintro rfl
      exact ⟨by linarith, by linarith, fun y _ _ => by rw [hgm]; exact (hle y).1⟩
  · obtain ⟨n, rfl⟩ := Nat.exists_eq_succ_of_ne_zero hi
    have h1 : ¬ g ((mx - mn) * (1 / 4) + mn) > g ((mx - mn) * (3 / 4) + mn) := by
      rw [hright ((mx - mn) * (3 / 4) + mn) (by linarith), not_lt]
      have h2 : g ((mx - mn) * (1 / 4) + mn) ≤ A * ((mx - mn) * (1 / 4) + mn - m) := by
        rw [hg]; exact min_le_left _ _
      have h3 : A * ((mx - mn) * (1 / 4) + mn - m) = -w := by
        rw [← hAe, hmdef, hw]; ring
      linarith
    have h2 : binarySearch g (n + 1) mn mx = binarySearch g n ((mx - mn) * (1 / 2) + mn) mx := by
      simp only [binarySearch, binaryLoop]
      rw [if_neg h1]
    rw [Nat.succ_eq_add_one, h2, binarySearch_falling g n _ _ (by linarith) ?_]
    · have h3 : (mx - ((mx - mn) * (1 / 2) + mn)) / 2 ^ n / 2 = (mx - mn) / 2 ^ (n + 1) / 2 := by
        rw [pow_succ]; field_simp; ring
      rw [h3]
      refine le_trans ?_ (le_abs_self _)
      linarith
    · intro x y hx hxy hy
      rw [hright x (by linarith), hright y (by linarith)]
      linarith

/-- C29, the exception for every range: the search raises its "no lambda found" exception exactly when every tested
step has objective `-inf`, or the first best step is the marker value `-1`. -/
theorem C29_exception_exact {R S : Type*} [Field R] [LinearOrder R] [IsStrictOrderedRing R]
    [LinearOrder S] [OrderBot S] (g : R → S) (mn mx : R) (itr : Nat) (hi : itr ≠ 0) (hr : mn < mx) :
    iterSearch g mn mx itr = .error .exception ↔
      (∀ i : Nat, i < itr → g (mn + i * ((mx - mn) / itr)) = ⊥) ∨
      ∃ j : Nat, j < itr ∧ mn + j * ((mx - mn) / itr) = -1 ∧
        (∀ i : Nat, i < itr → g (mn + i * ((mx - mn) / itr)) ≤ g (-1)) ∧
        ∀ i : Nat, i < j → g (mn + i * ((mx - mn) / itr)) < g (-1) := by
  have hget : ∀ i : Nat, i < itr → (lineGrid mn mx itr)[i]? = some (mn + i * ((mx - mn) / itr)) := by
    intro i hi
    simp [lineGrid, hi]
  have hi0 : (0 : R) < itr := by exact_mod_cast Nat.pos_of_ne_zero hi
  have hstep : 0 < (mx - mn) / (itr : R) := div_pos (by linarith) hi0
  unfold iterSearch
  rw [if_neg (by push Not; exact ⟨hi, hr.ne'⟩)]
  simp only
  rcases iterLoop_spec g (lineGrid mn mx itr) (-1, ⊥) with ⟨h1, h2⟩ | ⟨j, x, hj, h1, h2, h3, h4⟩
  · rw [h1]
    simp only [if_true, true_iff]
    exact Or.inl fun i hlt => le_bot_iff.1 (h2 _ (List.mem_of_getElem? (hget i hlt)))
  · rw [h1]
    have hjlt : j < itr := by
      have := (List.getElem?_eq_some_iff.1 hj).1
      simpa [lineGrid] using this
    have hx : x = mn + j * ((mx - mn) / itr) := by
      have := hget j hjlt
      rw [hj] at this
      exact Option.some.inj this
    constructor
    · intro h
      right
      have hx1 : x = -1 := by
        by_contra hne
        simp only [hne, if_false] at h
        cases h
      subst hx1
      refine ⟨j, hjlt, hx.symm, fun i hi => h3 _ (List.mem_of_getElem? (hget i hi)), fun i hi => ?_⟩
      exact h4 i hi _ (hget i (hi.trans hjlt))
    · rintro (h | ⟨j', hj', hm1, hall, hbefore⟩)
      · rw [hx, h j hjlt] at h2
        exact absurd h2 (lt_irrefl _)
      · have hxm : x = -1 := by
          rcases lt_trichotomy j j' with hlt | heq | hgt
          · have e1 := hbefore j hlt
            rw [← hx] at e1
            have e2 := h3 _ (List.mem_of_getElem? (hget j' hj'))
            rw [hm1] at e2
            exact absurd (e2.trans_lt e1) (lt_irrefl _)
          · rw [hx, heq, hm1]
          · have e1 := h4 j' hgt _ (hget j' hj')
            rw [hm1] at e1
            have e2 := hall j hjlt
            rw [← hx] at e2
            exact absurd (e2.trans_lt e1) (lt_irrefl _)
        simp [hxm]

/-- A range on which the marker value is a grid step. -/
example : (-2 : ℚ) < 0 ∧ (2 : Nat) ≠ 0 ∧ (-2 : ℚ) + (1 : Nat) * ((0 - -2) / (2 : Nat)) = -1 := by norm_num

/-- The defaults of the code meet the hypotheses of `C28_concave_sharp`. -/
example : (5 : Nat) ≠ 0 ∧ (0 : ℚ) < 3 / 2 ∧ (0 : ℚ) < 1 / 100 := by norm_num

end Lop.Props
