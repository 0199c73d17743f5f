import Verif.Model.Cov
import Verif.Model.Sampling
import Verif.Model.SynthUser
import Mathlib.Analysis.Complex.ExponentialBounds
import Mathlib.Analysis.SpecialFunctions.Trigonometric.Bounds
import Mathlib.Data.Fin.VecNotation

/-! # The repository's own tests of kernels, choice probabilities and synthetic users, replayed on the model

These are tests of the fidelity of the model, not proofs of properties: every expectation asserted by a
test of the repository is checked on the corresponding definition. -/

namespace Lop.Conform

/-- A one-dimensional point. -/
def pt1 (x : ℝ) : Pt 1 := fun _ => x

theorem exp_half_bounds : 0.6 < Real.exp (-(1 / 2)) ∧ Real.exp (-(1 / 2)) < 0.61 := by
  have h1 := Real.exp_one_gt_d9
  have h2 := Real.exp_one_lt_d9
  have hp : Real.exp (-(1 / 2)) * Real.exp (-(1 / 2)) * Real.exp 1 = 1 := by
    rw [← Real.exp_add, ← Real.exp_add]; norm_num
  have h0 := Real.exp_pos (-(1 / 2))
  have hq : 0 < Real.exp (-(1 / 2)) * Real.exp (-(1 / 2)) := by positivity
  constructor <;> nlinarith [Real.exp_pos 1]

/-- `test_rbf`: `0.5 < RBF_kern(1,1)(1,2) < 0.7`. -/
example : 0.5 < (KLeaf.rbf 1 1 0 : KLeaf ℝ (Pt 1)).eval (pt1 1) (pt1 2) ∧
    (KLeaf.rbf 1 1 0 : KLeaf ℝ (Pt 1)).eval (pt1 1) (pt1 2) < 0.7 := by
  have h := exp_half_bounds
  have e : (KLeaf.rbf 1 1 0 : KLeaf ℝ (Pt 1)).eval (pt1 1) (pt1 2) = Real.exp (-(1 / 2)) := by
    simp [KLeaf.eval, rbfEval, sqDist, pt1]; norm_num
  rw [e]; constructor <;> linarith [h.1, h.2]

/-- `test_rbf_grad_cov`, `test_rbf_kern_cov`: the diagonal of the covariance matrix is near `sigma²`. -/
example (x : ℝ) : (KLeaf.rbf 1 1 0 : KLeaf ℝ (Pt 1)).eval (pt1 x) (pt1 x) = 1 := by
  simp [KLeaf.eval, rbfEval, sqDist]

/-- `test_LinearKern`: `LinearKern(1,1,1)(1,2) == 1`. -/
example : (KLeaf.linear 1 1 1 : KLeaf ℝ (Pt 1)).eval (pt1 1) (pt1 2) = 1 := by
  simp [KLeaf.eval, linEval, pt1]

theorem per_value : (KLeaf.periodic 1 1 3 : KLeaf ℝ (Pt 1)).eval (pt1 1) (pt1 2) = Real.exp (-(3 / 2)) := by
  have h3 : Real.sqrt 3 * Real.sqrt 3 = 3 := Real.mul_self_sqrt (by norm_num)
  have e : Real.pi * |(1:ℝ) - 2| / 3 = Real.pi / 3 := by norm_num
  simp only [KLeaf.eval, perEval, perExp, l1Dist, pt1, Fin.sum_univ_one, e, Real.sin_pi_div_three, one_mul]
  congr 1
  linear_combination (-1 / 2) * h3

theorem exp_three_half_bounds : 0.2 < Real.exp (-(3 / 2)) ∧ Real.exp (-(3 / 2)) < 0.23 := by
  have h := exp_half_bounds
  have e : Real.exp (-(3 / 2)) = Real.exp (-(1 / 2)) ^ 3 := by rw [← Real.exp_nat_mul]; norm_num
  rw [e]
  constructor
  · calc (0.2:ℝ) < 0.6 ^ 3 := by norm_num
      _ < _ := pow_lt_pow_left₀ h.1 (by norm_num) (by norm_num)
  · calc Real.exp (-(1 / 2)) ^ 3 < 0.61 ^ 3 := pow_lt_pow_left₀ h.2 (Real.exp_pos _).le (by norm_num)
      _ < _ := by norm_num

/-- `test_PeriodicKern`: `0.15 < PeriodicKern(1,1,3)(1,2) < 0.3`. -/
example : 0.15 < (KLeaf.periodic 1 1 3 : KLeaf ℝ (Pt 1)).eval (pt1 1) (pt1 2) ∧
    (KLeaf.periodic 1 1 3 : KLeaf ℝ (Pt 1)).eval (pt1 1) (pt1 2) < 0.3 := by
  have h := exp_three_half_bounds
  rw [per_value]; constructor <;> linarith [h.1, h.2]

/-- `test_combined_kern`: `0.8 < (rbf + periodic * linear)(1,2) < 0.9`. -/
example :
    let k : KExpr ℝ (Pt 1) := .dual .add (.leaf (.rbf 1 1 0)) (.dual .mul (.leaf (.periodic 1 1 3)) (.leaf (.linear 1 1 1)))
    0.8 < k.eval (pt1 1) (pt1 2) ∧ k.eval (pt1 1) (pt1 2) < 0.9 := by
  have h := exp_three_half_bounds
  have h' := exp_half_bounds
  have e : (KLeaf.rbf 1 1 0 : KLeaf ℝ (Pt 1)).eval (pt1 1) (pt1 2) = Real.exp (-(1 / 2)) := by
    simp [KLeaf.eval, rbfEval, sqDist, pt1]; norm_num
  have e2 : (KLeaf.linear 1 1 1 : KLeaf ℝ (Pt 1)).eval (pt1 1) (pt1 2) = 1 := by
    simp [KLeaf.eval, linEval, pt1]
  simp only [KExpr.eval, e, e2, per_value]
  constructor <;> linarith [h.1, h.2, h'.1, h'.2]

/-- `test_human_pdf_same_value`: eight equal rewards give probability 0.125 each. -/
example : pHumanChoice (fun _ : Fin 8 => 5) 1 = .ok fun _ => 0.125 := by
  unfold pHumanChoice
  rw [dif_pos ⟨0, Finset.mem_univ _⟩]
  refine congrArg Except.ok (funext fun i => ?_)
  have h : ∀ x : ℝ, Real.exp x / (8 * Real.exp x) = 0.125 := fun x => by
    rw [div_eq_iff (by positivity)]; ring
  simpa using h _

/-- The utility `FakeLinear` with `w = [0.5, 0.5]` of `test_synthetic_user.py`. -/
noncomputable def halfSum (x : ℝ × ℝ) : ℝ := 0.5 * x.1 + 0.5 * x.2

/-- `test_perfect_user_choose_2`: the first option is chosen, one pair `(-1, 0, 1)`. -/
example : perfectChoose halfSum [(1, 0.5), (0.7, 0.7)] = .ok 0 ∧
    choosePairs (perfectChoose halfSum) [(1, 0.5), (0.7, 0.7)] = .ok [⟨-1, 0, 1⟩] := by
  have h : perfectChoose halfSum [(1, 0.5), (0.7, 0.7)] = .ok 0 := by
    norm_num [perfectChoose, npArgmax, argmaxFrom, halfSum]
  refine ⟨h, ?_⟩
  rw [choosePairs, h]
  decide +kernel

/-- `test_perfect_user_choose_3`: pairs `(-1, 0, 1)` and `(-1, 0, 2)`. -/
example : perfectChoose halfSum [(1, 0.5), (0.7, 0.7), (0.2, 1.2)] = .ok 0 ∧
    choosePairs (perfectChoose halfSum) [(1, 0.5), (0.7, 0.7), (0.2, 1.2)] = .ok [⟨-1, 0, 1⟩, ⟨-1, 0, 2⟩] := by
  have h : perfectChoose halfSum [(1, 0.5), (0.7, 0.7), (0.2, 1.2)] = .ok 0 := by
    norm_num [perfectChoose, npArgmax, argmaxFrom, halfSum]
  refine ⟨h, ?_⟩
  rw [choosePairs, h]
  decide +kernel

theorem exp_neg_lt_tenth {x : ℝ} (h : 9 < x) : Real.exp (-x) < 0.1 := by
  have h1 : Real.exp x > 10 := by linarith [Real.add_one_lt_exp (x := x) (by linarith)]
  rw [Real.exp_neg]
  calc (Real.exp x)⁻¹ < 10⁻¹ := inv_strictAnti₀ (by norm_num) h1
    _ = _ := by norm_num

/-- `test_perfect_user_rate`: ratings in the expected ranges. -/
example : (0.5 < perfectRate halfSum (0.7, 1) ∧ perfectRate halfSum (0.7, 1) < 0.97) ∧
    (0.9 < perfectRate halfSum (2000, 2000) ∧ perfectRate halfSum (2000, 2000) ≤ 1) ∧
    (0 ≤ perfectRate halfSum (-2000, -2000) ∧ perfectRate halfSum (-2000, -2000) < 0.1) := by
  have a := Real.exp_pos (-(4 * (0.5 * 0.7 + 0.5 * 1) + 0) : ℝ)
  have b : Real.exp (-(4 * (0.5 * 0.7 + 0.5 * 1) + 0) : ℝ) < 1 := by rw [Real.exp_lt_one_iff]; norm_num
  have c : 0.031 < Real.exp (-(4 * (0.5 * 0.7 + 0.5 * 1) + 0) : ℝ) := by
    have e : Real.exp (-(4 * (0.5 * 0.7 + 0.5 * 1) + 0) : ℝ) * Real.exp 1 ^ 3 = Real.exp (-(1 / 5)) ^ 2 := by
      rw [← Real.exp_nat_mul, ← Real.exp_nat_mul, ← Real.exp_add]; norm_num
    have h1 : (0.8:ℝ) ≤ Real.exp (-(1 / 5)) := by linarith [Real.add_one_le_exp (-(1 / 5) : ℝ)]
    have h2 : (0.64:ℝ) ≤ Real.exp (-(1 / 5)) ^ 2 := by nlinarith
    have h3 : Real.exp 1 ^ 3 < 20.1 := by
      calc Real.exp 1 ^ 3 < 2.7182818286 ^ 3 := pow_lt_pow_left₀ Real.exp_one_lt_d9 (Real.exp_pos _).le (by norm_num)
        _ < _ := by norm_num
    nlinarith [pow_pos (Real.exp_pos 1) 3]
  have d := exp_neg_lt_tenth (x := 4 * (0.5 * 2000 + 0.5 * 2000) + 0) (by norm_num)
  have d' := Real.exp_pos (-(4 * (0.5 * 2000 + 0.5 * 2000) + 0) : ℝ)
  have f : 10 < Real.exp (-(4 * (0.5 * (-2000) + 0.5 * (-2000)) + 0) : ℝ) := by
    refine lt_trans ?_ (Real.add_one_lt_exp (by norm_num))
    norm_num
  simp only [perfectRate, sigmoid, halfSum]
  refine ⟨⟨?_, ?_⟩, ⟨?_, ?_⟩, ?_, ?_⟩
  · rw [lt_div_iff₀ (by positivity)]; linarith
  · rw [div_lt_iff₀ (by positivity)]; linarith
  · rw [lt_div_iff₀ (by positivity)]; linarith
  · rw [div_le_iff₀ (by positivity)]; linarith
  · positivity
  · rw [div_lt_iff₀ (by positivity)]; linarith

end Lop.Conform
