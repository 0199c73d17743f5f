import Verif.Conform.Numeric
import Verif.Model.GP
import Verif.Props.PrefProbit
import Verif.Props.AbsProbit

/-! # The repository's own tests of probits, gamma priors, choice probabilities, the zeroed kernel and GP regression, replayed on the model

`tests/probits/test_probits.py`, `tests/utilities/test_gamma_dist.py`, `tests/utilities/test_human_choice.py`,
`tests/kernels/test_rbf_kernel.py`, `tests/kernels/test_rbf_kernel_zeroed.py`, `tests/models/test_GP.py`. Tests, not proofs. -/

namespace Lop.Conform

open Props

/-- The values of `test_preference_probit_likelihood_all_pairs`. -/
noncomputable def pairValues : Fin 4 → ℝ := ![0, 0.5, 1, 1.5]

/-- `test_preference_probit_likelihood_all_pairs`. -/
example : prefAllPairs 0.5 pairValues 0 1 < 0.5 ∧ 0.5 < prefAllPairs 0.5 pairValues 3 0 ∧
    prefAllPairs 0.5 pairValues 0 1 = 1 - prefAllPairs 0.5 pairValues 1 0 := by
  have hs : (0:ℝ) < 0.5 := by norm_num
  have h01 := (C36_probability 0.5 hs pairValues 0 1).2.2.2.1
  have h03 := (C36_probability 0.5 hs pairValues 0 3).2.2.2.1
  have h2 : (1:ℝ) ≤ Real.sqrt 2 := by rw [Real.one_le_sqrt]; norm_num
  have c : ∀ i j, |pairValues i - pairValues j| ≤ 1.5 →
      prefAllPairs 0.5 pairValues i j + prefAllPairs 0.5 pairValues j i = 1 := fun i j h =>
    C36_complement_partial 0.5 pairValues i j (by
      rw [abs_div, abs_of_pos (show (0:ℝ) < Real.sqrt 2 * 0.5 by positivity), div_le_iff₀ (by positivity)]
      nlinarith)
  have c01 := c 0 1 (by simp [pairValues]; norm_num [abs_le])
  have c03 := c 0 3 (by simp [pairValues]; norm_num [abs_le])
  have a : ¬ (1 / 2 ≤ prefAllPairs 0.5 pairValues 0 1) := by rw [h01]; norm_num [pairValues]
  have b : ¬ (1 / 2 ≤ prefAllPairs 0.5 pairValues 0 3) := by
    rw [h03]; simp only [pairValues, Matrix.cons_val_zero, Matrix.cons_val]; norm_num
  refine ⟨?_, ?_, ?_⟩ <;> norm_num at * <;> linarith

/-- `test_abs_bound_probit_likelihood`, `test_abs_bound_probit_likelihood_not_all_indicies`: the logarithm of `likelihood` is the
log-likelihood of `derivatives`, with all or only the first three of the four points rated. -/
example (F : Fin 4 → ℝ) (eps : ℝ) :
    Real.log (absLikelihood 0.5 4 eps [(0.1, 0), (0.2, 1), (0.5, 2), (0.4, 3)] F) =
        (absDerivatives 0.5 4 eps [(0.1, 0), (0.2, 1), (0.5, 2), (0.4, 3)] F).2.2 ∧
      Real.log (absLikelihood 0.5 4 eps [(0.1, 0), (0.2, 1), (0.5, 2)] F) =
        (absDerivatives 0.5 4 eps [(0.1, 0), (0.2, 1), (0.5, 2)] F).2.2 := by
  constructor <;>
    simp [absLikelihood, absLogLik, absDerivatives, assignVec, Fin.sum_univ_four, Function.update] <;> ring

/-- `test_log_pdf_gamma_dist`, `test_d_log_pdf_gamma_dist`: at 0 the logarithm is below -10 and its derivative positive. -/
example : logPdfGamma 0 10 0.2 < -10 ∧ 0 < dLogPdfGamma 0 10 0.2 := by
  constructor
  · have hG : Real.Gamma 10 = 362880 := by
      have := Real.Gamma_nat_eq_factorial 9
      rw [show ((9:ℕ):ℝ) + 1 = 10 by norm_num] at this
      rw [this]; norm_num [Nat.factorial]
    have hp : (0.2:ℝ) ^ (10:ℝ) = 0.2 ^ 10 := by rw [← Real.rpow_natCast]; norm_num
    have e : logPdfGamma 0 10 0.2 =
        ((Real.log (1 / (362880 * 0.2 ^ 10)) + (10 - 1) * Real.log 0.000001 - 0.000001 / 0.2 : ℝ) : EReal) := by
      simp only [logPdfGamma, hG, hp]
      norm_num
    rw [e, show (-10 : EReal) = ((-10 : ℝ) : EReal) from rfl, EReal.coe_lt_coe_iff]
    have h1 : Real.log (1 / (362880 * 0.2 ^ 10)) ≤ 27 := by
      have := Real.log_le_sub_one_of_pos (x := 1 / (362880 * 0.2 ^ 10)) (by norm_num)
      norm_num at this ⊢
      linarith
    have h2 : Real.log 0.000001 ≤ -5.4 := by
      have h := Real.log_le_sub_one_of_pos (x := 0.1) (by norm_num)
      have e6 : Real.log 0.000001 = 6 * Real.log 0.1 := by rw [← Real.log_rpow (by norm_num)]; norm_num
      rw [e6]; norm_num at h ⊢; linarith
    linarith
  · norm_num [dLogPdfGamma]

/-- `test_human_pdf_single_value`: the one large reward is chosen almost surely. -/
example : ∃ pdf, pHumanChoice (![0, 0, 0, 500, 0, 0, 0] : Fin 7 → ℝ) 1 = .ok pdf ∧
    ∀ i, |pdf i - if i = 3 then 1 else 0| < 0.0001 := by
  refine ⟨_, by unfold pHumanChoice; rw [dif_pos ⟨0, Finset.mem_univ _⟩], ?_⟩
  have hm : (Finset.univ : Finset (Fin 7)).sup' ⟨0, Finset.mem_univ _⟩ (![0, 0, 0, 500, 0, 0, 0] : Fin 7 → ℝ) = 500 := by
    refine le_antisymm (Finset.sup'_le _ _ fun i _ => ?_) (Finset.le_sup' (![0, 0, 0, 500, 0, 0, 0] : Fin 7 → ℝ) (Finset.mem_univ 3))
    fin_cases i <;> norm_num
  have h0 : 0 < Real.exp (-500) := Real.exp_pos _
  have h1 : Real.exp (-500) < 0.00001 := by
    have e : Real.exp (-500) = (Real.exp 1 ^ 500)⁻¹ := by rw [Real.exp_neg, ← Real.exp_nat_mul]; norm_num
    rw [e]
    have : (100001:ℝ) ≤ Real.exp 1 ^ 500 := by
      calc (100001:ℝ) ≤ 2 ^ 20 := by norm_num
        _ ≤ Real.exp 1 ^ 20 := pow_le_pow_left₀ (by norm_num) (by linarith [Real.exp_one_gt_d9]) _
        _ ≤ _ := pow_le_pow_right₀ (by linarith [Real.exp_one_gt_d9]) (by norm_num)
    calc (Real.exp 1 ^ 500)⁻¹ ≤ (100001:ℝ)⁻¹ := inv_anti₀ (by norm_num) this
      _ < _ := by norm_num
  intro i
  simp only [hm, Fin.sum_univ_seven]
  generalize hx : Real.exp (-500) = x at h0 h1
  have hpos : 0 < 1 + 6 * x := by positivity
  fin_cases i <;> simp [hx] <;> rw [abs_lt]
  case «3» =>
    constructor
    · rw [lt_sub_iff_add_lt, inv_eq_one_div, lt_div_iff₀ (by positivity)]; nlinarith
    · rw [sub_lt_iff_lt_add, inv_eq_one_div, div_lt_iff₀ (by positivity)]; nlinarith
  all_goals
    constructor
    · refine lt_of_lt_of_le ?_ (div_nonneg h0.le (by positivity)); norm_num
    · rw [div_lt_iff₀ (by positivity)]; nlinarith

/-- `test_rbf` of the zeroed kernel: `0.5 < RBF_kern_zeroed(1,1)(1,2) < 0.7`. -/
example : 0.5 < (KLeaf.zeroed 1 1 none 0 : KLeaf ℝ (Pt 1)).eval (pt1 1) (pt1 2) ∧
    (KLeaf.zeroed 1 1 none 0 : KLeaf ℝ (Pt 1)).eval (pt1 1) (pt1 2) < 0.7 := by
  have h := exp_half_bounds
  have e : (KLeaf.zeroed 1 1 none 0 : KLeaf ℝ (Pt 1)).eval (pt1 1) (pt1 2) =
      Real.exp (-(1 / 2)) - Real.exp (-(1 / 2)) ^ 5 := by
    rw [← Real.exp_nat_mul, show ((5:ℕ):ℝ) * -(1 / 2) = -(1 / 2) + -2 by norm_num, Real.exp_add]
    simp [KLeaf.eval, rbfEval, sqDist, pt1, zeroPt]; norm_num
  rw [e]
  generalize Real.exp (-(1 / 2)) = x at h
  have h5 : x ^ 5 < 0.61 ^ 5 := pow_lt_pow_left₀ h.2 (by linarith [h.1]) (by norm_num)
  have h5' : 0 < x ^ 5 := pow_pos (by linarith [h.1]) _
  constructor <;> norm_num at * <;> linarith [h.1, h.2]

/-- `test_rbf_kern_cov`: the points 0 and 7 are almost uncorrelated. -/
example : (KLeaf.rbf 1 1 0 : KLeaf ℝ (Pt 1)).eval (pt1 7) (pt1 0) < 0.0001 := by
  have e : (KLeaf.rbf 1 1 0 : KLeaf ℝ (Pt 1)).eval (pt1 7) (pt1 0) = Real.exp (-(1 / 2)) ^ 49 := by
    rw [← Real.exp_nat_mul]
    simp [KLeaf.eval, rbfEval, sqDist, pt1]; norm_num
  rw [e]
  calc Real.exp (-(1 / 2)) ^ 49 < 0.61 ^ 49 := pow_lt_pow_left₀ exp_half_bounds.2 (Real.exp_pos _).le (by norm_num)
    _ < _ := by norm_num

/-- `test_gp_reset`: after `reset` the prediction is 0. -/
example (cov : CovFn 1) (rows : List (Pt 1 × ℝ × ℝ)) {n : Nat} (X : Fin n → Pt 1) (c) (h : cov n n X X = .ok c) :
    ∃ r, gpRegress cov (fun _ => 0) (gpReset (gpAdd (fun _ => 0) none rows)) X = .ok r ∧ ∀ i, r.mu i = 0 :=
  ⟨⟨fun _ => 0, fun i => max 0 (c i i), c⟩, by simp only [gpReset, gpRegress, h], fun _ => rfl⟩

end Lop.Conform
