import Verif.Model.ScoreRating
import Verif.Model.Data
import Verif.Spec.ScoreRating
import Mathlib.Tactic.Linarith
import Mathlib.Tactic.NormNum
import Mathlib.Tactic.FieldSimp

/-! # C126: quantised ratings of the experiments -/

namespace Lop.Props

open Spec

section C126

/-- C126: for positive utilities the rating is one of 0.1, 0.3, 0.5, 0.7, 0.9; for utilities between the bounds it is
within a tenth of the position of the utility between the bounds. -/
theorem C126_quantised_partial (lo hi : ℝ) (hlo : 0 ≤ lo) (hlh : lo < hi) (ys : List ℝ) (hy : ∀ y ∈ ys, 0 < y) :
    ∃ rs, scoreRatings lo hi ys = .ok rs ∧ rs.length = ys.length ∧
      ∀ (j : Nat) y r, ys[j]? = some y → rs[j]? = some r →
        r ∈ fiveSteps ∧ (lo ≤ y → y ≤ hi → |r - relPosition lo hi y| ≤ 0.1) := by
  have hw : 0 < hi - lo := sub_pos.2 hlh
  unfold scoreRatings decisionPts
  rw [if_neg hw.ne']
  refine ⟨_, rfl, by simp, ?_⟩
  intro j y r hj hr
  simp only [List.getElem?_map, hj, Option.map_some, Option.some.injEq] at hr
  have hy0 : 0 < y := hy y (List.mem_of_getElem? hj)
  have hpos : relPosition lo hi y * (hi - lo) = y - lo := div_mul_cancel₀ _ hw.ne'
  subst hr
  simp only [scoreRating, List.range, List.range.loop, List.map_cons, List.map_nil, List.set_cons_zero, lastBelow]
  set p := relPosition lo hi y with hp
  have hup : ∀ a : ℝ, y ≤ lo + a * (hi - lo) → p ≤ a := fun a h => by
    by_contra hc
    nlinarith [not_le.1 hc]
  have hdn : ∀ a : ℝ, lo + a * (hi - lo) ≤ y → a ≤ p := fun a h => by
    by_contra hc
    nlinarith [not_le.1 hc]
  rw [if_pos hy0]
  have h12 : lo + 1 * ((hi - lo) / 5) < lo + 2 * ((hi - lo) / 5) := by linarith
  have h23 : lo + 2 * ((hi - lo) / 5) < lo + 3 * ((hi - lo) / 5) := by linarith
  have h34 : lo + 3 * ((hi - lo) / 5) < lo + 4 * ((hi - lo) / 5) := by linarith
  push_cast
  rw [abs_le]
  by_cases h4 : y > lo + 4 * ((hi - lo) / 5)
  · rw [if_pos h4]
    norm_num [fiveSteps]
    intro h1 h2
    have := hup 1 (by linarith)
    have := hdn (4 / 5) (by linarith)
    constructor <;> linarith
  rw [if_neg h4]
  by_cases h3 : y > lo + 3 * ((hi - lo) / 5)
  · rw [if_pos h3]
    norm_num [fiveSteps]
    intro h1 h2
    have := hup (4 / 5) (by linarith)
    have := hdn (3 / 5) (by linarith)
    constructor <;> linarith
  rw [if_neg h3]
  by_cases h2 : y > lo + 2 * ((hi - lo) / 5)
  · rw [if_pos h2]
    norm_num [fiveSteps]
    intro h1 h2
    have := hup (3 / 5) (by linarith)
    have := hdn (2 / 5) (by linarith)
    constructor <;> linarith
  rw [if_neg h2]
  by_cases h1 : y > lo + 1 * ((hi - lo) / 5)
  · rw [if_pos h1]
    norm_num [fiveSteps]
    intro h1 h2
    have := hup (2 / 5) (by linarith)
    have := hdn (1 / 5) (by linarith)
    constructor <;> linarith
  rw [if_neg h1]
  norm_num [fiveSteps]
  intro h1 h2
  have := hup (1 / 5) (by linarith)
  have := hdn 0 (by linarith)
  constructor <;> linarith

/-- The bounds used by the experiments, a utility in the middle: the rating is one half. -/
example : ∃ rs, scoreRatings 0.2 2.2 [1.2, 0.1, 5] = .ok rs ∧ rs.length = 3 ∧ ∀ r ∈ rs, r ∈ fiveSteps := by
  obtain ⟨rs, h1, h2, h3⟩ := C126_quantised_partial 0.2 2.2 (by norm_num) (by norm_num) [1.2, 0.1, 5]
    (by simp; norm_num)
  refine ⟨rs, h1, h2, fun r hr => ?_⟩
  obtain ⟨j, hj⟩ := List.getElem?_of_mem hr
  have hlt : j < rs.length := by
    by_contra hc
    rw [List.getElem?_eq_none (not_lt.1 hc)] at hj
    cases hj
  rw [h2] at hlt
  exact (h3 j _ r (List.getElem?_eq_getElem hlt) hj).1

/-- C126: a higher utility never gets a lower rating, whatever the bounds are. -/
theorem C126_monotone (lo hi : ℝ) (ys rs : List ℝ) (h : scoreRatings lo hi ys = .ok rs) (i j : Nat) (a b r s : ℝ)
    (ha : ys[i]? = some a) (hb : ys[j]? = some b) (hr : rs[i]? = some r) (hs : rs[j]? = some s) (hab : a ≤ b) : r ≤ s := by
  have mono : ∀ (pts : List ℝ) (k x x' : Int), x ≤ x' → x' < k → lastBelow a pts k x ≤ lastBelow b pts k x' := by
    intro pts
    induction pts with
    | nil => intro k x x' hx _; exact hx
    | cons p pts ih =>
      intro k x x' hx hk
      simp only [lastBelow]
      apply ih
      · by_cases h1 : a > p
        · rw [if_pos h1, if_pos (lt_of_lt_of_le h1 hab)]
        · rw [if_neg h1]
          by_cases h2 : b > p
          · rw [if_pos h2]; omega
          · rw [if_neg h2]; exact hx
      · split <;> omega
  unfold scoreRatings at h
  split at h
  · cases h
  · rename_i pts _
    have h := Except.ok.inj h
    subst h
    simp only [List.getElem?_map, ha, hb, Option.map_some, Option.some.injEq] at hr hs
    subst hr hs
    unfold scoreRating
    have h1 : ((lastBelow a pts 0 (-1) : ℤ) : ℝ) ≤ (lastBelow b pts 0 (-1) : ℤ) := by
      exact_mod_cast mono pts 0 (-1) (-1) le_rfl (by norm_num)
    linarith

example : ∃ rs, scoreRatings 0 1 [0.3, 0.7] = .ok rs := by
  unfold scoreRatings decisionPts
  rw [if_neg (by norm_num)]
  exact ⟨_, rfl⟩

/-- C126 refuted for utilities that are not positive: with bounds around zero the rating is -0.1, also for a utility inside the
bounds, and `add` refuses it. -/
theorem C126_negative_counterexample (lo hi y : ℝ) (hlo : lo < hi) (h5 : 0 ≤ lo + (hi - lo) / 5) (hy : y ≤ 0)
    (lab : Labels ℝ) (n : Nat) :
    scoreRatings lo hi [y] = .ok [-0.1] ∧ addLabels lab n (.absVec [-0.1]) = .error .valueError := by
  have hw : 0 < hi - lo := sub_pos.2 hlo
  constructor
  · unfold scoreRatings decisionPts
    rw [if_neg hw.ne']
    simp only [scoreRating, List.range, List.range.loop, List.map_cons, List.map_nil, List.set_cons_zero, lastBelow]
    push_cast
    rw [if_neg (by linarith), if_neg (by linarith), if_neg (by linarith), if_neg (by linarith), if_neg (by linarith)]
    norm_num
  · simp only [addLabels, addAbs]
    rw [if_pos]
    left
    simp
    norm_num

/-- Bounds -0.1 and 1, utility -0.05: inside the bounds. -/
example (lab : Labels ℝ) : scoreRatings (-0.1) 1 [-0.05] = .ok [-0.1] ∧
    addLabels lab 0 (.absVec [-0.1]) = .error .valueError :=
  C126_negative_counterexample (-0.1) 1 (-0.05) (by norm_num) (by norm_num) (by norm_num) lab 0

/-- C126, error branch: equal bounds raise `ZeroDivisionError`. -/
theorem C126_equal_bounds (lo : ℝ) (ys : List ℝ) : scoreRatings lo lo ys = .error .zeroDivision := by
  unfold scoreRatings decisionPts
  rw [if_pos (sub_self lo)]

end C126

end Lop.Props
