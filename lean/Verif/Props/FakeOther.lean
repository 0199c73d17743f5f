import Verif.Model.FakeOther
import Verif.Props.FakeFunction
import Mathlib.Tactic.Linarith
import Mathlib.Tactic.NormNum
import Mathlib.Tactic.Positivity
import Mathlib.Algebra.BigOperators.Intervals

/-! # C87: the fake functions that are not monotone -/

namespace Lop.Props

open Lop Lop.Spec Finset

variable {n : Nat}

/-- C87: for non-negative rewards `FakeSinExp` stays between -1 and 1, and decays at least like the exponential of the weighted reward. -/
theorem C87_sinexp_bounds (rw rk : Fin (n + 1) → ℝ) (u : ℝ) (hw : ∀ j, 0 ≤ rw j) (p : SinExpParams n)
    (hp : sinExpRandomize rw rk u = some p) (x : Fin (n + 1) → ℝ) (hx : ∀ j, 0 ≤ x j) :
    |fakeSinExp p x| ≤ Real.exp (-∑ j, x j * rw j) ∧ |fakeSinExp p x| ≤ 1 := by
  have hpw : p.w = rw := by
    rw [sinExpRandomize] at hp
    cases hk : sumWeights rk with
    | none => rw [hk] at hp; cases hp
    | some k => rw [hk] at hp; injection hp with hp; rw [← hp]
  have h1 : |fakeSinExp p x| ≤ Real.exp (-∑ j, x j * rw j) := by
    rw [fakeSinExp, abs_mul, Real.abs_exp, hpw]
    have := Real.abs_sin_le_one ((∑ j, x j * p.k j) + p.phase)
    nlinarith [Real.exp_pos (-∑ j, x j * rw j)]
  refine ⟨h1, h1.trans ?_⟩
  rw [Real.exp_le_one_iff]
  have : 0 ≤ ∑ j, x j * rw j := sum_nonneg fun j _ => mul_nonneg (hx j) (hw j)
  linarith

/-- C87: `FakeSinExp` does not respect dominance, as its comment says: for the phase π/2 the worst reward vector 0 is better than every vector with a
positive reward of positive weight. -/
theorem C87_sinexp_not_monotone (rw rk : Fin (n + 1) → ℝ) (hw : ∀ j, 0 ≤ rw j) (p : SinExpParams n)
    (hp : sinExpRandomize rw rk (1 / 2) = some p) (x : Fin (n + 1) → ℝ) (hx : ∀ j, 0 ≤ x j) (j : Fin (n + 1))
    (hj : 0 < x j * rw j) : fakeSinExp p x < fakeSinExp p 0 := by
  have hb := (C87_sinexp_bounds rw rk _ hw p hp x hx).1
  have hph : p.phase = Real.pi / 2 := by
    rw [sinExpRandomize] at hp
    cases hk : sumWeights rk with
    | none => rw [hk] at hp; cases hp
    | some k => rw [hk] at hp; injection hp with hp; rw [← hp]; ring
  have h0 : fakeSinExp p 0 = 1 := by simp [fakeSinExp, hph]
  have hs : 0 < ∑ j, x j * rw j :=
    sum_pos' (fun k _ => mul_nonneg (hx k) (hw k)) ⟨j, mem_univ _, hj⟩
  have : Real.exp (-∑ j, x j * rw j) < 1 := by
    rw [← Real.exp_zero]
    exact Real.exp_lt_exp.2 (by linarith)
  rw [h0]
  exact lt_of_le_of_lt (le_abs_self _) (lt_of_le_of_lt hb this)

theorem diagGaussPdf_pos (mean var x : Fin (n + 1) → ℝ) (hv : ∀ j, 0 < var j) : 0 < diagGaussPdf mean var x := by
  refine prod_pos fun j _ => mul_pos (inv_pos.2 (Real.sqrt_pos.2 ?_)) (Real.exp_pos _)
  have := hv j
  have := Real.pi_pos
  positivity

theorem diagGaussPdf_le (mean var x : Fin (n + 1) → ℝ) (hv : ∀ j, 0 < var j) :
    diagGaussPdf mean var x ≤ diagGaussPdf mean var mean := by
  refine prod_le_prod (fun j _ => ?_) fun j _ => ?_
  · exact mul_nonneg (inv_nonneg.2 (Real.sqrt_nonneg _)) (Real.exp_pos _).le
  · refine mul_le_mul_of_nonneg_left (Real.exp_le_exp.2 ?_) (inv_nonneg.2 (Real.sqrt_nonneg _))
    rw [sub_self]
    have := hv j
    have h2 : 0 ≤ (x j - mean j) ^ 2 / (2 * var j) := by positivity
    have h3 : -(x j - mean j) ^ 2 / (2 * var j) = -((x j - mean j) ^ 2 / (2 * var j)) := neg_div _ _
    rw [h3]
    simpa using h2

theorem diagGaussPdf_lt (mean var x : Fin (n + 1) → ℝ) (hv : ∀ j, 0 < var j) (j : Fin (n + 1)) (hj : x j ≠ mean j) :
    diagGaussPdf mean var x < diagGaussPdf mean var mean := by
  have pos : ∀ (x : Fin (n + 1) → ℝ) (k : Fin (n + 1)), 0 < (√(2 * Real.pi * var k))⁻¹ * Real.exp (-(x k - mean k) ^ 2 / (2 * var k)) := by
    intro x k
    have := hv k
    have := Real.pi_pos
    have : 0 < √(2 * Real.pi * var k) := Real.sqrt_pos.2 (by positivity)
    positivity
  refine prod_lt_prod (fun k _ => pos x k) (fun k _ => ?_) ⟨j, mem_univ _, ?_⟩
  · refine mul_le_mul_of_nonneg_left (Real.exp_le_exp.2 ?_) (inv_nonneg.2 (Real.sqrt_nonneg _))
    rw [sub_self]
    have := hv k
    have h2 : 0 ≤ (x k - mean k) ^ 2 / (2 * var k) := by positivity
    have h3 : -(x k - mean k) ^ 2 / (2 * var k) = -((x k - mean k) ^ 2 / (2 * var k)) := neg_div _ _
    rw [h3]
    simpa using h2
  · have hvj := hv j
    have : 0 < √(2 * Real.pi * var j) := Real.sqrt_pos.2 (by have := Real.pi_pos; positivity)
    refine mul_lt_mul_of_pos_left (Real.exp_lt_exp.2 ?_) (inv_pos.2 this)
    rw [sub_self]
    have h2 : 0 < (x j - mean j) ^ 2 / (2 * var j) := div_pos (pow_pos (abs_pos.2 (sub_ne_zero.2 hj)) 2 |> fun h => by rwa [sq_abs] at h) (by linarith)
    have h3 : -(x j - mean j) ^ 2 / (2 * var j) = -((x j - mean j) ^ 2 / (2 * var j)) := neg_div _ _
    rw [h3]
    simpa using h2

/-- C87: a Gaussian mixture (at least one kernel, positive variances) is positive everywhere, at most the sum of the peaks of its kernels, and at the centre
of each kernel at least the peak of this kernel; a single kernel is largest exactly at its centre. -/
theorem C87_mixture (p : MixtureParams n) (hne : p ≠ []) (hv : ∀ k ∈ p, ∀ j, 0 < k.2 j) (x : Fin (n + 1) → ℝ) :
    0 < mixtureAt p x ∧ mixtureAt p x ≤ (p.map fun k => ∏ j, (√(2 * Real.pi * k.2 j))⁻¹).sum ∧
    (∀ k ∈ p, ∏ j, (√(2 * Real.pi * k.2 j))⁻¹ ≤ mixtureAt p k.1) ∧
    ∀ k, p = [k] → x ≠ k.1 → mixtureAt p x < mixtureAt p k.1 := by
  have peak : ∀ m v : Fin (n + 1) → ℝ, diagGaussPdf m v m = ∏ j, (√(2 * Real.pi * v j))⁻¹ := by
    intro m v
    simp [diagGaussPdf]
  refine ⟨?_, ?_, ?_, ?_⟩
  · cases p with
    | nil => exact absurd rfl hne
    | cons k ks =>
      rw [mixtureAt, List.map_cons, List.sum_cons]
      refine add_pos_of_pos_of_nonneg (diagGaussPdf_pos _ _ _ (hv k (by simp))) (List.sum_nonneg ?_)
      intro y hy
      obtain ⟨k', hk', rfl⟩ := List.mem_map.1 hy
      exact (diagGaussPdf_pos _ _ _ (hv k' (by simp [hk']))).le
  · refine List.sum_le_sum fun k hk => ?_
    rw [← peak k.1 k.2]
    exact diagGaussPdf_le _ _ _ (hv k hk)
  · intro k hk
    rw [← peak k.1 k.2]
    have h : ∀ y ∈ p.map fun k' => diagGaussPdf k'.1 k'.2 k.1, 0 ≤ y := by
      intro y hy
      obtain ⟨k', hk', rfl⟩ := List.mem_map.1 hy
      exact (diagGaussPdf_pos _ _ _ (hv k' hk')).le
    exact List.single_le_sum h _ (List.mem_map.2 ⟨k, hk, rfl⟩)
  · rintro k rfl hx
    obtain ⟨j, hj⟩ := Function.ne_iff.1 hx
    simpa [mixtureAt] using diagGaussPdf_lt k.1 k.2 x (hv k (by simp)) j hj

/-- C87: a Gaussian mixture does not respect dominance: beyond the centres of the kernels a larger reward is worth less, here for one kernel. -/
theorem C87_mixture_not_monotone (m v x : Fin (n + 1) → ℝ) (hv : ∀ j, 0 < v j) (hx : ∀ j, m j < x j) :
    mixtureAt [(m, v)] x < mixtureAt [(m, v)] m := by
  refine (C87_mixture [(m, v)] (by simp) (by simpa using hv) x).2.2.2 (m, v) rfl ?_
  intro h
  have := hx 0
  rw [h] at this
  exact lt_irrefl _ this

/-- C87 refuted for a single reward vector in dimension two or more: `calc` of a vector has one value for each coordinate, all the same, where the matrix
with this row gives one value. -/
theorem C87_vector_counterexample (p : MixtureParams n) (hn : 0 < n) (x : Fin (n + 1) → ℝ) :
    (mixtureVector p x).length ≠ 1 ∧ (mixtureMatrix p [x]).length = 1 ∧
    ∀ z ∈ mixtureVector p x, mixtureMatrix p [x] = [z] := by
  refine ⟨by simp [mixtureVector]; omega, by simp [mixtureMatrix], ?_⟩
  intro z hz
  rw [mixtureVector] at hz
  rw [List.eq_of_mem_replicate hz]
  rfl

/-- C87: the values of a matrix are the values of its rows. -/
theorem C87_matrix (p : MixtureParams n) (rows : List (Fin (n + 1) → ℝ)) :
    (mixtureMatrix p rows).length = rows.length ∧
    ∀ (i : Nat) x, rows[i]? = some x → (mixtureMatrix p rows)[i]? = some ((p.map fun k => diagGaussPdf k.1 k.2 x).sum) := by
  refine ⟨by simp [mixtureMatrix], fun i x hx => by simp [mixtureMatrix, hx, mixtureAt]⟩

/-- C87: `FakeStaticSin` goes up and down: it is negative at 5, positive at 8 and negative at 10; up to 10 its values are between -2 and 2. -/
theorem C87_static : fakeStaticSin 5 < 0 ∧ 0 < fakeStaticSin 8 ∧ fakeStaticSin 10 = -1 ∧
    ∀ x ≤ 10, |fakeStaticSin x| ≤ 2 := by
  refine ⟨?_, ?_, ?_, ?_⟩
  · have : Real.pi * ((10 - 5) - 2) / 3 = Real.pi := by ring
    rw [fakeStaticSin, this, Real.cos_pi]
    have := Real.exp_pos (-(0.99 * (10 - 5)))
    linarith
  · have : Real.pi * ((10 - 8) - 2) / 3 = 0 := by ring
    rw [fakeStaticSin, this, Real.cos_zero]
    have := Real.exp_pos (-(0.99 * (10 - 8)))
    linarith
  · have : Real.pi * ((10 - 10) - 2) / 3 = -(Real.pi - Real.pi / 3) := by ring
    rw [fakeStaticSin, this, Real.cos_neg, Real.cos_pi_sub, Real.cos_pi_div_three]
    norm_num
  · intro x hx
    rw [fakeStaticSin, abs_mul, abs_mul, Real.abs_exp, abs_two]
    have h1 := Real.abs_cos_le_one (Real.pi * ((10 - x) - 2) / 3)
    have h2 : Real.exp (-(0.99 * (10 - x))) ≤ 1 := Real.exp_le_one_iff.2 (by linarith)
    have h3 := Real.exp_pos (-(0.99 * (10 - x)))
    have h4 := abs_nonneg (Real.cos (Real.pi * ((10 - x) - 2) / 3))
    nlinarith [mul_le_one₀ h1 h3.le h2]

/-- One row of the table. -/
theorem integRow_eq (g : ℝ) (fi prev : Nat → ℝ) (h0 : prev 0 = 0) (j : Nat) :
    integRow g fi prev j = prev j + (∑ b ∈ range j, fi (b + 1)) * g := by
  induction j with
  | zero => simp [integRow, h0]
  | succ j ih =>
    rw [integRow, ih, sum_range_succ]
    ring

/-- C87: the table of `FakeIntegrate` is the grid size times the sum of the function over the grid points up to the position. -/
theorem C87_table (g : ℝ) (f : Nat → Nat → ℝ) (i j : Nat) :
    integTable g f i j = g * ∑ a ∈ range i, ∑ b ∈ range j, f (a + 1) (b + 1) := by
  induction i generalizing j with
  | zero => simp [integTable]
  | succ i ih =>
    rw [integTable, integRow_eq _ _ _ (by rw [ih]; simp), ih, sum_range_succ]
    ring

/-- C87 (the table is the integral) refuted: for the constant function 1 it holds the area divided by the grid size, so that for the grid size of the
code, 0.05, it is twenty times the integral. -/
theorem C87_table_counterexample (i j : Nat) :
    integTable 0.05 (fun _ _ => 1) i j = 20 * ((0.05 * i) * (0.05 * j)) ∧
    (0 < i → 0 < j → integTable 0.05 (fun _ _ => 1) i j ≠ (0.05 * i) * (0.05 * j)) := by
  have h : integTable 0.05 (fun _ _ => 1) i j = 20 * ((0.05 * i) * (0.05 * j)) := by
    rw [C87_table]
    simp
    ring
  refine ⟨h, fun hi hj => ?_⟩
  have hi' : (0 : ℝ) < i := by exact_mod_cast hi
  have hj' : (0 : ℝ) < j := by exact_mod_cast hj
  rw [h]
  have : (0 : ℝ) < (0.05 * i) * (0.05 * j) := by positivity
  linarith

/-- C87: for a non-negative function the table is monotone in both directions. -/
theorem C87_table_mono (g : ℝ) (hg : 0 ≤ g) (f : Nat → Nat → ℝ) (hf : ∀ a b, 0 ≤ f a b) {i i' j j' : Nat} (hi : i ≤ i')
    (hj : j ≤ j') : integTable g f i j ≤ integTable g f i' j' := by
  rw [C87_table, C87_table]
  refine mul_le_mul_of_nonneg_left ?_ hg
  calc _ ≤ ∑ a ∈ range i, ∑ b ∈ range j', f (a + 1) (b + 1) :=
        sum_le_sum fun a _ => sum_le_sum_of_subset_of_nonneg (range_mono hj) fun b _ _ => hf _ _
    _ ≤ _ := sum_le_sum_of_subset_of_nonneg (range_mono hi) fun a _ _ => sum_nonneg fun b _ => hf _ _

/-- Draws for which `FakeSinExp` has parameters. -/
example : ∃ p : SinExpParams 1, sinExpRandomize ![1 / 2, 1 / 4] ![1 / 2, 1 / 2] (1 / 2) = some p ∧
    fakeSinExp p ![1, 1] < fakeSinExp p 0 := by
  have h : ∃ p : SinExpParams 1, sinExpRandomize ![1 / 2, 1 / 4] ![1 / 2, 1 / 2] (1 / 2) = some p := by
    simp only [sinExpRandomize, sumWeights]
    rw [if_neg (by norm_num [Fin.sum_univ_succ])]
    exact ⟨_, rfl⟩
  obtain ⟨p, hp⟩ := h
  exact ⟨p, hp, C87_sinexp_not_monotone _ _ (Fin.forall_fin_two.2 ⟨by norm_num, by norm_num⟩) p hp _
    (Fin.forall_fin_two.2 ⟨by norm_num, by norm_num⟩) 0 (by norm_num)⟩

example : integTable 1 (fun a b => (a : ℝ) * b) 2 2 = 9 := by
  rw [C87_table]
  norm_num [sum_range_succ]

end Lop.Props
