import Verif.Proofs.Optim
import Mathlib.Data.EReal.Basic
import Mathlib.Algebra.Order.Ring.Rat
import Mathlib.Data.Fin.VecNotation
import Mathlib.Analysis.Convex.Mul

/-! # Properties C28, C29, C30, C63 – line searches, Newton steps, fitting loops -/

namespace Lop.Props

open Lop.Spec Matrix

/-! ## C28 binary line search -/

/-- C28, range and width: for every objective, the returned step is the midpoint of a sub-interval of
`[min, max]` of width `(max - min) / 2^itr`. -/
theorem C28_interval {R S : Type*} [Field R] [LinearOrder R] [IsStrictOrderedRing R] [LinearOrder S]
    (g : R → S) (itr : Nat) (mn mx : R) (h : mn ≤ mx) :
    ∃ a b, mn ≤ a ∧ a ≤ b ∧ b ≤ mx ∧ b - a = (mx - mn) / 2 ^ itr ∧
      binarySearch g itr mn mx = (a + b) / 2 ∧
      mn ≤ binarySearch g itr mn mx ∧ binarySearch g itr mn mx ≤ mx := by
  obtain ⟨h1, h2, h3, h4⟩ := binaryLoop_interval g itr mn mx h
  refine ⟨_, _, h1, h2, h3, h4, ?_, ?_, ?_⟩ <;> simp only [binarySearch]
  · ring
  · linarith
  · linarith

/-- C28, a strictly positive step: with a range starting at 0, as in every call in the code, the step
is strictly positive. -/
theorem C28_positive {R S : Type*} [Field R] [LinearOrder R] [IsStrictOrderedRing R] [LinearOrder S]
    (g : R → S) (itr : Nat) (mx : R) (h : 0 < mx) : 0 < binarySearch g itr 0 mx := by
  obtain ⟨h1, h2, h3, h4⟩ := binaryLoop_interval g itr 0 mx h.le
  have : (0 : R) < (mx - 0) / 2 ^ itr := by
    rw [sub_zero]; positivity
  simp only [binarySearch]
  linarith

/-- C28 for objectives that fall with the distance to a point `m` (concave quadratics in particular):
the step is within half the final interval of the maximiser of the range. -/
theorem C28_symmetric_partial {R S : Type*} [Field R] [LinearOrder R] [IsStrictOrderedRing R]
    [LinearOrder S] (g : R → S) (m : R) (hg : ∀ x y, g x < g y ↔ |y - m| < |x - m|)
    (itr : Nat) (mn mx : R) (h : mn ≤ mx) :
    ∃ x, IsMaxOn g mn mx x ∧ |binarySearch g itr mn mx - x| ≤ (mx - mn) / 2 ^ itr / 2 := by
  have hle : mn ≤ max mn (min m mx) := le_max_left _ _
  have hle2 : max mn (min m mx) ≤ mx := max_le h (min_le_right _ _)
  refine ⟨max mn (min m mx), ⟨hle, hle2, fun x hx1 hx2 => ?_⟩, ?_⟩
  · refine not_lt.1 fun hlt => ?_
    have hlt := (hg _ _).1 hlt
    revert hlt
    rw [imp_false, not_lt]
    rcases le_total m mx with h1 | h1
    · rw [min_eq_left h1]
      rcases le_total mn m with h2 | h2
      · rw [max_eq_right h2]; simp
      · rw [max_eq_left h2, abs_of_nonneg (by linarith), abs_of_nonneg (by linarith)]; linarith
    · rw [min_eq_right h1, max_eq_right h, abs_of_nonpos (by linarith), abs_of_nonpos (by linarith)]
      linarith
  · obtain ⟨h1, h2⟩ := binaryLoop_symmetric g m hg itr mn mx mn mx le_rfl le_rfl h hle hle2
    obtain ⟨_, _, _, h4⟩ := binaryLoop_interval g itr mn mx h
    simp only [binarySearch]
    rw [← h4, abs_le]
    constructor <;> linarith

/-- C28 for every concave objective, with the bound that does hold: the step is within a quarter of
the *initial* range plus half the final interval of a maximiser. -/
theorem C28_concave_partial {R : Type*} [Field R] [LinearOrder R] [IsStrictOrderedRing R]
    (g : R → R) (itr : Nat) (mn mx : R) (h : mn < mx) (hg : ConcaveOn R (Set.Icc mn mx) g)
    (hm : ∃ m, IsMaxOn g mn mx m) :
    ∃ m, IsMaxOn g mn mx m ∧
      |binarySearch g itr mn mx - m| ≤ (mx - mn) / 4 + (mx - mn) / 2 ^ itr / 2 := by
  obtain ⟨m, hmax⟩ := hm
  obtain ⟨m', hm', h1, h2⟩ := binaryLoop_concave g mn mx hg itr mn mx ((mx - mn) / 4) le_rfl le_rfl h
    le_rfl ⟨m, hmax, by linarith [hmax.1], by linarith [hmax.2.1]⟩
  obtain ⟨_, _, _, h4⟩ := binaryLoop_interval g itr mn mx h.le
  refine ⟨m', hm', ?_⟩
  simp only [binarySearch]
  rw [← h4, abs_le]
  constructor <;> linarith

/-- The concave objective used in the counterexample: steep rise to `0.6`, gentle fall afterwards. -/
def skewed (x : ℚ) : ℚ := min (10 * x) (6 + (3 / 5 - x))

theorem skewed_concave : ConcaveOn ℚ (Set.Icc 0 (3 / 2)) skewed := by
  refine ConcaveOn.inf ⟨convex_Icc _ _, ?_⟩ ⟨convex_Icc _ _, ?_⟩
  · intro x _ y _ a b _ _ hab
    simp only [smul_eq_mul]
    apply le_of_eq; ring
  · intro x _ y _ a b _ _ hab
    simp only [smul_eq_mul]
    apply le_of_eq
    have : b = 1 - a := by linarith
    subst this; ring

/-- C28 as stated is false: on a concave objective with the defaults of the code (range `[0, 1.5]`,
5 iterations) the search ends farther than half its final interval from the unique maximiser. -/
theorem C28_concave_counterexample :
    ConcaveOn ℚ (Set.Icc 0 (3 / 2)) skewed ∧
    (∃ m, IsMaxOn skewed 0 (3 / 2) m) ∧
    ∀ m, IsMaxOn skewed 0 (3 / 2) m →
      ¬ |binarySearch skewed 5 0 (3 / 2) - m| ≤ (3 / 2 - 0) / 2 ^ 5 / 2 := by
  refine ⟨skewed_concave, ⟨3 / 5, by norm_num, by norm_num, fun x _ _ => ?_⟩, fun m hm => ?_⟩
  · have : skewed (3 / 5) = 6 := by decide +kernel
    rw [this]
    rcases le_total x (3 / 5) with h | h
    · exact (min_le_left _ _).trans (by linarith)
    · exact (min_le_right _ _).trans (by linarith)
  · have h1 := hm.2.2 (3 / 5) (by norm_num) (by norm_num)
    have h2 : skewed (3 / 5) = 6 := by decide +kernel
    rw [h2] at h1
    have h3 : m = 3 / 5 := by
      have e1 := h1.trans (min_le_left _ _)
      have e2 := h1.trans (min_le_right _ _)
      linarith
    subst h3
    decide +kernel

/-- A case with non-trivial data meeting the hypotheses of `C28_symmetric_partial`. -/
example : ∀ x y : ℚ, -(x - 1) ^ 2 < -(y - 1) ^ 2 ↔ |y - 1| < |x - 1| := by
  intro x y
  rw [neg_lt_neg_iff, sq_lt_sq]

example : (0 : ℚ) < 3 / 2 ∧ binarySearch (fun x : ℚ => -((x - 1) * (x - 1))) 5 0 (3 / 2) = 129 / 128 := by
  constructor <;> decide +kernel

/-- `C28_concave_partial` applies to the skewed objective. -/
example : (0 : ℚ) < 3 / 2 ∧ ConcaveOn ℚ (Set.Icc 0 (3 / 2)) skewed ∧
    ∃ m, IsMaxOn skewed 0 (3 / 2) m :=
  ⟨by norm_num, C28_concave_counterexample.1, C28_concave_counterexample.2.1⟩

/-! ## C29 iterative line search -/

/-- C29: whenever the search returns, the returned step is a grid step in
`[min, max)`, its objective is the largest on the grid, the first such; and it is above `-inf`. -/
theorem C29_best_grid_step {R S : Type*} [Field R] [LinearOrder R] [IsStrictOrderedRing R]
    [LinearOrder S] [OrderBot S] (g : R → S) (mn mx : R) (itr : Nat)
    (lam : R) (h : iterSearch g mn mx itr = .ok lam) (hr : mn < mx) :
    ∃ j : Nat, j < itr ∧ lam = mn + j * ((mx - mn) / itr) ∧ mn ≤ lam ∧ lam < mx ∧
      ⊥ < g lam ∧ (∀ i : Nat, i < itr → g (mn + i * ((mx - mn) / itr)) ≤ g lam) ∧
      ∀ i : Nat, i < j → g (mn + i * ((mx - mn) / itr)) < g lam := by
  unfold iterSearch at h
  split at h
  · cases h
  rename_i hne
  push Not at hne
  simp only at h
  split at h
  · cases h
  rename_i hbest
  cases h
  rcases iterLoop_spec g (lineGrid mn mx itr) (-1, ⊥) with ⟨h1, _⟩ | ⟨j, x, hj, h1, h2, h3, h4⟩
  · rw [h1] at hbest; exact absurd rfl hbest
  · rw [h1]
    simp only
    have hget : ∀ i : Nat, i < itr →
        (lineGrid mn mx itr)[i]? = some (mn + i * ((mx - mn) / itr)) := by
      intro i hi
      simp [lineGrid, hi]
    have hjlt : j < itr := by
      have := (List.getElem?_eq_some_iff.1 hj).1
      simpa [lineGrid] using this
    have hx : x = mn + j * ((mx - mn) / itr) := by
      have := hget j hjlt
      rw [hj] at this
      exact Option.some.inj this
    have hi0 : (0 : R) < itr := by exact_mod_cast Nat.pos_of_ne_zero hne.1
    have hstep : 0 < (mx - mn) / (itr : R) := div_pos (by linarith) hi0
    refine ⟨j, hjlt, hx, ?_, ?_, h2, ?_, ?_⟩
    · rw [hx]; have : (0 : R) ≤ j * ((mx - mn) / itr) := by positivity
      linarith
    · rw [hx]
      have h5 : (j : R) < itr := by exact_mod_cast hjlt
      have h6 := mul_lt_mul_of_pos_right h5 hstep
      have h7 : (itr : R) * ((mx - mn) / itr) = mx - mn := by field_simp
      linarith
    · intro i hi
      exact h3 _ (List.mem_of_getElem? (hget i hi))
    · intro i hi
      exact h4 i hi _ (hget i (hi.trans hjlt))

/-- C29, the exception: for a range starting above `-1` (`0.01` in the code) the search raises its
"no lambda found" exception exactly when every tested step has objective `-inf`. -/
theorem C29_exception_partial {R S : Type*} [Field R] [LinearOrder R] [IsStrictOrderedRing R]
    [LinearOrder S] [OrderBot S] (g : R → S) (mn mx : R) (itr : Nat) (hi : itr ≠ 0)
    (hr : mn < mx) (hm : -1 < mn) :
    iterSearch g mn mx itr = .error .exception ↔
      ∀ i : Nat, i < itr → g (mn + i * ((mx - mn) / itr)) = ⊥ := by
  have hi0 : (0 : R) < itr := by exact_mod_cast Nat.pos_of_ne_zero hi
  have hstep : 0 < (mx - mn) / (itr : R) := div_pos (by linarith) hi0
  have hmem : ∀ x, x ∈ lineGrid mn mx itr ↔ ∃ i : Nat, i < itr ∧ x = mn + i * ((mx - mn) / itr) := by
    intro x
    simp only [lineGrid, List.mem_map, List.mem_range]
    exact ⟨fun ⟨i, h1, h2⟩ => ⟨i, h1, h2.symm⟩, fun ⟨i, h1, h2⟩ => ⟨i, h1, h2.symm⟩⟩
  unfold iterSearch
  rw [if_neg (by push Not; exact ⟨hi, hr.ne'⟩)]
  simp only
  rcases iterLoop_spec g (lineGrid mn mx itr) (-1, ⊥) with ⟨h1, h2⟩ | ⟨j, x, hj, h1, h2, h3, h4⟩
  · rw [h1]
    simp only [if_true, true_iff]
    intro i hlt
    exact le_bot_iff.1 (h2 _ ((hmem _).2 ⟨i, hlt, rfl⟩))
  · rw [h1]
    obtain ⟨i, hlt, hx⟩ := (hmem x).1 (List.mem_of_getElem? hj)
    have hne : x ≠ -1 := by
      have : (0 : R) ≤ i * ((mx - mn) / itr) := by positivity
      rw [hx]
      intro h
      linarith
    simp only [hne, if_false]
    constructor
    · intro h; cases h
    · intro h
      rw [hx, h i hlt] at h2
      exact absurd h2 (lt_irrefl _)

/-- C29, rejected inputs: with no iterations the step size divides by zero, whatever the range. -/
theorem C29_zero_iterations {R S : Type*} [Field R] [LinearOrder R] [IsStrictOrderedRing R]
    [LinearOrder S] [OrderBot S] (g : R → S) (mn mx : R) :
    iterSearch g mn mx 0 = .error .zeroDivision := by
  simp [iterSearch]

/-- C29 as stated (every grid) is false: the "not found" marker `-1` may be the best grid step. -/
theorem C29_marker_counterexample :
    iterSearch (S := WithBot ℚ) (fun x : ℚ => ((-(x + 1) ^ 2 : ℚ) : WithBot ℚ)) (-2) 0 2
      = .error .exception ∧
    ¬ ∀ i : Nat, i < 2 →
      (fun x : ℚ => ((-(x + 1) ^ 2 : ℚ) : WithBot ℚ)) (-2 + i * ((0 - (-2)) / (2 : Nat))) = ⊥ := by
  constructor
  · decide +kernel
  · intro h
    exact WithBot.coe_ne_bot (h 0 (by norm_num))

/-- Non-trivial instance of C29. -/
example : iterSearch (S := WithBot ℚ) (fun x : ℚ => ((-(x - 1) ^ 2 : ℚ) : WithBot ℚ)) 0 2 4
    = .ok 1 ∧ (0 : ℚ) < 2 ∧ (-1 : ℚ) < 0 := by
  refine ⟨?_, ?_, ?_⟩ <;> decide +kernel

/-! ## C30 Newton updates -/

section newton
variable {n : Nat} {S : Type*} [LinearOrder S] [OrderBot S]

/-- C30, main branch: for every gradient, negative definite Hessian and loss, the update computed with
the binary search is `F` plus a step with non-negative inner product with the gradient – positive when
the gradient is non-zero. -/
theorem C30_binary_partial (F grad : Fin n → ℝ) (hess : Matrix (Fin n) (Fin n) ℝ)
    (hneg : (-hess).PosDef) (loss : (Fin n → ℝ) → S) (itr : Nat) :
    ∃ F', newtonUpdate F grad hess loss npInv .binary itr = .ok F' ∧
      0 ≤ grad ⬝ᵥ (F' - F) ∧ (grad ≠ 0 → 0 < grad ⬝ᵥ (F' - F)) := by
  refine ⟨_, rfl, ?_⟩
  exact newton_uphill hneg (C28_positive _ _ _ (by norm_num))

/-- C30 with the iterative search: whenever it finds a step, the update goes uphill. -/
theorem C30_iter_partial (F grad : Fin n → ℝ) (hess : Matrix (Fin n) (Fin n) ℝ)
    (hneg : (-hess).PosDef) (loss : (Fin n → ℝ) → S) (itr : Nat) (F' : Fin n → ℝ)
    (h : newtonUpdate F grad hess loss npInv .iter itr = .ok F') :
    0 ≤ grad ⬝ᵥ (F' - F) ∧ (grad ≠ 0 → 0 < grad ⬝ᵥ (F' - F)) := by
  simp only [newtonUpdate] at h
  split at h
  · cases h
  · rename_i lam hlam
    cases h
    obtain ⟨j, _, _, h1, _⟩ := C29_best_grid_step _ _ _ _ _ hlam (by norm_num)
    exact newton_uphill hneg (lt_of_lt_of_le (by norm_num) h1)

/-- C30 for any inversion routine: if it returns a matrix whose negation is positive semidefinite (e.g.
a pseudo-inverse of a negative semidefinite Hessian), the update does not go downhill. -/
theorem C30_any_inverse_partial (F grad : Fin n → ℝ) (hess M : Matrix (Fin n) (Fin n) ℝ)
    (invert : Matrix (Fin n) (Fin n) ℝ → Option (Matrix (Fin n) (Fin n) ℝ))
    (hM : invert hess = some M) (hneg : (-M).PosSemidef) (loss : (Fin n → ℝ) → S) (itr : Nat) :
    ∃ F', newtonUpdate F grad hess loss invert .binary itr = .ok F' ∧ 0 ≤ grad ⬝ᵥ (F' - F) := by
  refine ⟨_, rfl, ?_⟩
  simp only [descentDir, hM]
  exact step_uphill hneg (C28_positive _ _ _ (by norm_num)).le

/-- C30: on a concave quadratic objective one update with the binary search lands at the exact maximiser
up to the resolution of the search: the step length is within `3/4 / 2^itr` of the full Newton step 1. -/
theorem C30_quadratic (F grad : Fin n → ℝ) (hess : Matrix (Fin n) (Fin n) ℝ) (hneg : (-hess).PosDef)
    (hgrad : grad ≠ 0) (c : ℝ) (itr : Nat) (loss : (Fin n → ℝ) → WithBot ℝ)
    (hloss : ∀ x, loss x = ((c + grad ⬝ᵥ (x - F) + (x - F) ⬝ᵥ (hess *ᵥ (x - F)) / 2 : ℝ) : WithBot ℝ)) :
    ∃ lam : ℝ, newtonUpdate F grad hess loss npInv .binary itr = .ok (F - lam • (grad ᵥ* hess⁻¹)) ∧
      |lam - 1| ≤ 3 / 4 / 2 ^ itr := by
  have hdet : IsUnit hess.det := by
    have h1 := hneg.isUnit
    rw [IsUnit.neg_iff, Matrix.isUnit_iff_isUnit_det] at h1
    exact h1
  have hinv : npInv hess = some hess⁻¹ := by simp [npInv, isUnit_iff_ne_zero.1 hdet]
  set d := grad ᵥ* hess⁻¹ with hd
  have hmul : d ᵥ* hess = grad := by
    rw [hd, Matrix.vecMul_vecMul, Matrix.nonsing_inv_mul _ hdet, Matrix.vecMul_one]
  have hq : grad ⬝ᵥ d < 0 := by
    have hdne : d ≠ 0 := by
      intro h0
      rw [h0, Matrix.zero_vecMul] at hmul
      exact hgrad hmul.symm
    have h1 := hneg.dotProduct_mulVec_pos hdne
    rw [star_trivial, Matrix.neg_mulVec, dotProduct_neg, Matrix.dotProduct_mulVec, hmul] at h1
    linarith
  have hg : ∀ lam : ℝ, loss (F - lam • d) =
      ((c - grad ⬝ᵥ d / 2 + grad ⬝ᵥ d / 2 * (lam - 1) ^ 2 : ℝ) : WithBot ℝ) := by
    intro lam
    rw [hloss]
    have e1 : F - lam • d - F = -(lam • d) := by abel
    rw [e1, Matrix.dotProduct_mulVec, Matrix.neg_vecMul, Matrix.smul_vecMul, hmul]
    simp only [dotProduct_neg, neg_dotProduct, neg_neg, smul_dotProduct, dotProduct_smul, smul_eq_mul]
    congr 1
    ring
  obtain ⟨x, hx, hb⟩ := C28_symmetric_partial (fun lam : ℝ => loss (F - lam • d)) 1 (by
    intro x y
    simp only [hg, WithBot.coe_lt_coe]
    rw [← sq_lt_sq]
    constructor <;> intro h <;> nlinarith) itr 0 (3 / 2) (by norm_num)
  have hx1 : x = 1 := by
    obtain ⟨_, _, h3⟩ := hx
    have := h3 1 (by norm_num) (by norm_num)
    simp only [hg, WithBot.coe_le_coe] at this
    have h4 : (x - 1) ^ 2 = 0 := by nlinarith [sq_nonneg (x - 1)]
    have := pow_eq_zero_iff (two_ne_zero) |>.1 h4
    linarith
  refine ⟨binarySearch (fun lam : ℝ => loss (F - lam • d)) itr 0 (3 / 2), ?_, ?_⟩
  · simp only [newtonUpdate, descentDir, hinv, ← hd]
  · rw [hx1] at hb
    refine hb.trans (le_of_eq ?_)
    ring

/-- C30, failure branch: when the Hessian cannot be inverted the update goes strictly *downhill* for
every non-zero gradient, whatever the loss function. -/
theorem C30_fallback_downhill_false (F grad : Fin n → ℝ) (hgrad : grad ≠ 0)
    (hess : Matrix (Fin n) (Fin n) ℝ)
    (invert : Matrix (Fin n) (Fin n) ℝ → Option (Matrix (Fin n) (Fin n) ℝ))
    (hfail : invert hess = none) (loss : (Fin n → ℝ) → S) (itr : Nat) :
    ∃ F', newtonUpdate F grad hess loss invert .binary itr = .ok F' ∧ grad ⬝ᵥ (F' - F) < 0 := by
  refine ⟨_, rfl, ?_⟩
  simp only [descentDir, hfail]
  exact gradient_downhill hgrad (C28_positive _ _ _ (by norm_num))

/-- C30: the remaining step-length options never return. -/
theorem C30_other_options (F grad : Fin n → ℝ) (hess : Matrix (Fin n) (Fin n) ℝ)
    (loss : (Fin n → ℝ) → S)
    (invert : Matrix (Fin n) (Fin n) ℝ → Option (Matrix (Fin n) (Fin n) ℝ)) (itr : Nat) :
    newtonUpdate F grad hess loss invert .static itr = .error .attributeError ∧
    newtonUpdate F grad hess loss invert .other itr = .error .valueError := ⟨rfl, rfl⟩

end newton

/-- A negative definite Hessian with a non-zero gradient. -/
example : (-(-1 : Matrix (Fin 2) (Fin 2) ℝ)).PosDef ∧ (![1, 2] : Fin 2 → ℝ) ≠ 0 := by
  refine ⟨by rw [neg_neg]; exact Matrix.PosDef.one, fun h => ?_⟩
  have := congrFun h 0
  simp at this

/-- The failure branch is reachable: the zero Hessian cannot be inverted. -/
example : npInv (0 : Matrix (Fin 2) (Fin 2) ℝ) = none ∧ (![1, 2] : Fin 2 → ℝ) ≠ 0 := by
  refine ⟨?_, fun h => ?_⟩
  · simp [npInv]
  · have := congrFun h 0
    simp at this

/-! ## C63 fitting loops stop -/

section loops
variable {σ : Type*}

/-- C63 for `PreferenceGP.find_mode`: whatever the loop body does (new iterates, loop test including
NaN comparisons, exceptions), the loop ends within `maxloops + 1` passes: it returns the iterate
reached after `k ≤ maxloops + 1` passes, having left because the test failed or because the limit was
exceeded, or it raises the exception of one of these passes. -/
theorem C63_find_mode_stops (step : σ → Except PyErr (σ × Bool)) (maxloops : Nat) (F : σ) (go : Bool) :
    (∃ F' k go', findModeLoop step maxloops (maxloops + 2) F go 0 = some (.ok (F', k)) ∧
      k ≤ maxloops + 1 ∧ (go = true → Steps step F k F' go' ∧ (go' = false ∨ k = maxloops + 1)) ∧
      (go = false → F' = F ∧ k = 0)) ∨
    (∃ e F' k, findModeLoop step maxloops (maxloops + 2) F go 0 = some (.error e) ∧
      k ≤ maxloops ∧ go = true ∧ Steps step F k F' true ∧ step F' = .error e) := by
  cases go with
  | false => exact .inl ⟨F, 0, true, by simp [findModeLoop], by omega, by simp, by simp⟩
  | true =>
    rcases findModeLoop_steps step maxloops (maxloops + 2) F F 0 (.zero F) (by omega) (by omega) with
      ⟨F', k, go', h1, h2, h3, h4⟩ | ⟨e, F', k, h1, h2, h3, h4⟩
    · exact .inl ⟨F', k, go', h1, h2, fun _ => ⟨h3, h4⟩, by simp⟩
    · exact .inr ⟨e, F', k, h1, h2, rfl, h3, h4⟩

/-- C63 for `PreferenceLinear.optimize`: at most `maxloops` updates. -/
theorem C63_linear_stops (step : σ → Except PyErr (σ × Bool)) (maxloops : Nat) (w : σ) (go : Bool) :
    (∃ w' k go', linearLoop step maxloops (maxloops + 1) w go 0 = some (.ok (w', k)) ∧
      k ≤ maxloops ∧ (go = true → Steps step w k w' go' ∧ (go' = false ∨ k = maxloops)) ∧
      (go = false → w' = w ∧ k = 0)) ∨
    (∃ e w' k, linearLoop step maxloops (maxloops + 1) w go 0 = some (.error e) ∧
      k < maxloops ∧ go = true ∧ Steps step w k w' true ∧ step w' = .error e) := by
  cases go with
  | false => exact .inl ⟨w, 0, true, by simp [linearLoop], by omega, by simp, by simp⟩
  | true =>
    rcases linearLoop_steps step maxloops (maxloops + 1) w w 0 (.zero w) (by omega) (by omega) with
      ⟨F', k, go', h1, h2, h3, h4⟩ | ⟨e, F', k, h1, h2, h3, h4⟩
    · exact .inl ⟨F', k, go', h1, h2, fun _ => ⟨h3, h4⟩, by simp⟩
    · exact .inr ⟨e, F', k, h1, h2, rfl, h3, h4⟩

end loops

/-- With the limit 100 of the code and a test that never fails, `find_mode` makes 101 updates and
`optimize` 100. -/
example :
    findModeLoop (fun s : Nat => .ok (s + 1, true)) 100 102 0 true 0 = some (.ok (101, 101)) ∧
    linearLoop (fun s : Nat => .ok (s + 1, true)) 100 101 0 true 0 = some (.ok (100, 100)) ∧
    findModeLoop (fun s : Nat => .ok (s + 1, decide (s < 3))) 100 102 0 true 0 = some (.ok (4, 4)) := by
  decide +kernel

end Lop.Props
