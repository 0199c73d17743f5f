import Verif.Model.InfoGain
import Verif.Spec.InfoGain
import Verif.Proofs.Sampling
import Verif.Spec.Sampling
import Mathlib.Tactic.Linarith
import Mathlib.Tactic.FieldSimp
import Mathlib.Tactic.Ring
import Mathlib.Tactic.Positivity

/-! # Gibbs' inequality for a table of choice probabilities -/

namespace Lop

open Finset

/-- The natural-log version of the gain, times the number of samples. -/
noncomputable def rawGain {s n : Nat} (p : Fin s → Fin n → ℝ) : ℝ :=
  ∑ i, ∑ j, p i j * Real.log (s * p i j / ∑ k, p k j)

variable {s n : Nat} {p : Fin s → Fin n → ℝ}

theorem colSum_pos (hs : 0 < s) (hp : ∀ i j, 0 < p i j) (j : Fin n) : 0 < ∑ k, p k j := by
  haveI : Nonempty (Fin s) := ⟨⟨0, hs⟩⟩
  exact Finset.sum_pos (fun k _ => hp k j) univ_nonempty

/-- Lower bound of one term. -/
theorem gain_term_ge (hs : 0 < s) (hp : ∀ i j, 0 < p i j) (i : Fin s) (j : Fin n) :
    p i j - (∑ k, p k j) / s ≤ p i j * Real.log (s * p i j / ∑ k, p k j) := by
  have hS := colSum_pos hs hp j
  have hs' : (0 : ℝ) < s := by exact_mod_cast hs
  have hx : 0 < s * p i j / ∑ k, p k j := div_pos (mul_pos hs' (hp i j)) hS
  have h := Real.one_sub_inv_le_log_of_pos hx
  have h2 := mul_le_mul_of_nonneg_left h (hp i j).le
  refine le_trans (le_of_eq ?_) h2
  rw [inv_div]
  have := (hp i j).ne'
  field_simp

theorem gain_term_eq (hs : 0 < s) (hp : ∀ i j, 0 < p i j) (i : Fin s) (j : Fin n)
    (h : p i j * Real.log (s * p i j / ∑ k, p k j) = p i j - (∑ k, p k j) / s) :
    p i j = (∑ k, p k j) / s := by
  have hS := colSum_pos hs hp j
  have hs' : (0 : ℝ) < s := by exact_mod_cast hs
  by_contra hne
  have hx : 0 < (∑ k, p k j) / (s * p i j) := div_pos hS (mul_pos hs' (hp i j))
  have hx1 : (∑ k, p k j) / (s * p i j) ≠ 1 := by
    intro h1
    apply hne
    rw [div_eq_one_iff_eq (mul_pos hs' (hp i j)).ne'] at h1
    rw [h1]
    field_simp
  have h1 := Real.log_lt_sub_one_of_pos hx hx1
  have h2 : Real.log (s * p i j / ∑ k, p k j) = -Real.log ((∑ k, p k j) / (s * p i j)) := by
    rw [← Real.log_inv, inv_div]
  rw [h2] at h
  have h3 := mul_lt_mul_of_pos_left h1 (hp i j)
  have h4 : p i j * ((∑ k, p k j) / (s * p i j) - 1) = (∑ k, p k j) / s - p i j := by
    have := (hp i j).ne'
    field_simp
  rw [h4] at h3
  linarith

theorem sum_col_zero (hs : 0 < s) (p : Fin s → Fin n → ℝ) :
    ∑ i, ∑ j, (p i j - (∑ k, p k j) / s) = 0 := by
  have hs' : (s : ℝ) ≠ 0 := by exact_mod_cast hs.ne'
  rw [sum_comm]
  refine sum_eq_zero fun j _ => ?_
  rw [sum_sub_distrib, sum_const, card_univ, Fintype.card_fin, nsmul_eq_mul]
  field_simp
  ring

theorem rawGain_nonneg (hs : 0 < s) (hp : ∀ i j, 0 < p i j) : 0 ≤ rawGain p := by
  rw [← sum_col_zero hs p]
  exact sum_le_sum fun i _ => sum_le_sum fun j _ => gain_term_ge hs hp i j

theorem rawGain_zero_iff (hs : 0 < s) (hp : ∀ i j, 0 < p i j) :
    rawGain p = 0 ↔ ∀ i k j, p i j = p k j := by
  constructor
  · intro h
    rw [← sum_col_zero hs p] at h
    have h1 := (sum_eq_sum_iff_of_le fun i _ => sum_le_sum fun j _ => gain_term_ge hs hp i j).1 h.symm
    have h2 : ∀ i j, p i j = (∑ k, p k j) / s := by
      intro i j
      have h3 := h1 i (mem_univ _)
      have h4 := (sum_eq_sum_iff_of_le fun j _ => gain_term_ge hs hp i j).1 h3 j (mem_univ _)
      exact gain_term_eq hs hp i j h4.symm
    intro i k j
    rw [h2 i j, h2 k j]
  · intro h
    refine sum_eq_zero fun i _ => sum_eq_zero fun j _ => ?_
    have h1 : ∑ k, p k j = s * p i j := by
      rw [sum_congr rfl fun k _ => h k i j]
      simp
    rw [h1, div_self, Real.log_one, mul_zero]
    have : (0 : ℝ) < s := by exact_mod_cast hs
    exact (mul_pos this (hp i j)).ne'

theorem rawGain_le (hs : 0 < s) (hn : 0 < n) (hp : ∀ i j, 0 < p i j) (h1 : ∀ i, ∑ j, p i j = 1) :
    rawGain p ≤ s * Real.log n := by
  have hs' : (0 : ℝ) < s := by exact_mod_cast hs
  have hn' : (0 : ℝ) < n := by exact_mod_cast hn
  have hle1 : ∀ i j, p i j ≤ 1 := by
    intro i j
    rw [← h1 i]
    exact single_le_sum (f := p i) (fun k _ => (hp i k).le) (mem_univ j)
  have hterm : ∀ i j, p i j * Real.log (s * p i j / ∑ k, p k j) ≤
      p i j * Real.log n + (p i j * (s / (n * ∑ k, p k j)) - p i j) := by
    intro i j
    have hS := colSum_pos hs hp j
    have hx : 0 < s * p i j / (n * ∑ k, p k j) := div_pos (mul_pos hs' (hp i j)) (mul_pos hn' hS)
    have h2 := Real.log_le_sub_one_of_pos hx
    have h3 : Real.log (s * p i j / ∑ k, p k j) = Real.log n + Real.log (s * p i j / (n * ∑ k, p k j)) := by
      rw [← Real.log_mul hn'.ne' hx.ne']
      congr 1
      field_simp
    rw [h3, mul_add]
    have h4 := mul_le_mul_of_nonneg_left h2 (hp i j).le
    have h5 : s * p i j / (n * ∑ k, p k j) ≤ s / (n * ∑ k, p k j) := by
      refine div_le_div_of_nonneg_right ?_ (mul_pos hn' hS).le
      nlinarith [hle1 i j]
    have h6 := mul_le_mul_of_nonneg_left h5 (hp i j).le
    linarith
  have hsum : ∑ i, ∑ j, (p i j * Real.log n + (p i j * (s / (n * ∑ k, p k j)) - p i j)) = s * Real.log n := by
    have e1 : ∑ i, ∑ j, p i j * Real.log n = s * Real.log n := by
      simp_rw [← sum_mul, h1]
      simp
    have e2 : ∑ i, ∑ j, p i j * (s / (n * ∑ k, p k j)) = s := by
      rw [sum_comm]
      have : ∀ j : Fin n, ∑ i, p i j * (s / (n * ∑ k, p k j)) = s / n := by
        intro j
        have hS := colSum_pos hs hp j
        rw [← sum_mul]
        field_simp
      simp_rw [this]
      simp
      field_simp
    have e3 : ∑ i, ∑ j, p i j = s := by
      simp_rw [h1]
      simp
    simp_rw [sum_add_distrib, sum_sub_distrib]
    rw [e1, e2, e3]
    ring
  rw [← hsum]
  exact sum_le_sum fun i _ => sum_le_sum fun j _ => hterm i j

theorem mutualInfo2_eq (hs : 0 < s) (hp : ∀ i j, 0 < p i j) :
    (∑ i, ∑ j, p i j * Real.logb 2 (s * p i j / ∑ k, p k j)) / s = Spec.mutualInfo2 p := by
  have hs' : (0 : ℝ) < s := by exact_mod_cast hs
  have hterm : ∀ i j, p i j * Real.logb 2 (s * p i j / ∑ k, p k j) =
      p i j * Real.logb 2 (p i j) - p i j * Real.logb 2 ((∑ k, p k j) / s) := by
    intro i j
    have hS := colSum_pos hs hp j
    rw [← mul_sub, ← Real.logb_div (hp i j).ne' (div_pos hS hs').ne']
    congr 2
    field_simp
  simp_rw [hterm, sum_sub_distrib]
  rw [sum_comm (f := fun i j => p i j * Real.logb 2 ((∑ k, p k j) / s))]
  simp_rw [← sum_mul]
  unfold Spec.mutualInfo2 Spec.entropy2
  rw [sum_neg_distrib, sub_div]
  have : (∑ j, (∑ i, p i j) * Real.logb 2 ((∑ k, p k j) / s)) / s =
      ∑ j, (∑ i, p i j) / s * Real.logb 2 ((∑ k, p k j) / s) := by
    rw [sum_div]
    exact sum_congr rfl fun j _ => by ring
  rw [this]
  ring

/-- Boltzmann distributions agree exactly when the reward differences do. -/
theorem boltzmann_eq_iff {n : Nat} (hn : 0 < n) (r r' : Fin n → ℝ) {c : ℝ} (hc : c ≠ 0) :
    Spec.boltzmann r c = Spec.boltzmann r' c ↔ ∀ a b, r a - r b = r' a - r' b := by
  have hd := softmax_denom_pos r c ⟨0, hn⟩
  have hd' := softmax_denom_pos r' c ⟨0, hn⟩
  constructor
  · intro h a b
    have ha := congrFun h a
    have hb := congrFun h b
    unfold Spec.boltzmann at ha hb
    rw [div_eq_div_iff hd.ne' hd'.ne'] at ha hb
    have h1 : Real.exp (c * r a) * Real.exp (c * r' b) = Real.exp (c * r' a) * Real.exp (c * r b) := by
      have hp := mul_pos hd hd'
      have : (Real.exp (c * r a) * Real.exp (c * r' b)) * ((∑ j, Real.exp (c * r j)) * ∑ j, Real.exp (c * r' j))
          = (Real.exp (c * r' a) * Real.exp (c * r b)) *
            ((∑ j, Real.exp (c * r j)) * ∑ j, Real.exp (c * r' j)) := by
        linear_combination (Real.exp (c * r' b) * ∑ j, Real.exp (c * r j)) * ha
          - (Real.exp (c * r' a) * ∑ j, Real.exp (c * r j)) * hb
      exact mul_right_cancel₀ hp.ne' this
    rw [← Real.exp_add, ← Real.exp_add] at h1
    have h2 := Real.exp_injective h1
    have h3 : c * (r a - r b) = c * (r' a - r' b) := by linarith
    exact mul_left_cancel₀ hc h3
  · intro h
    funext a
    unfold Spec.boltzmann
    rw [div_eq_div_iff hd.ne' hd'.ne', mul_sum, mul_sum]
    refine sum_congr rfl fun b _ => ?_
    rw [← Real.exp_add, ← Real.exp_add]
    congr 1
    have := h a b
    linear_combination c * this

end Lop
