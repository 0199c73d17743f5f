import Verif.Model.UcbLinear
import Verif.Spec.UcbLinear
import Mathlib.Analysis.InnerProductSpace.PiL2

/-! Standard deviations as norms. -/

namespace Lop

open Spec

theorem npVarVec_eq {n : Nat} (hn : n ≠ 0) (a : Fin n → ℝ) :
    npVarVec a = sampleAvg (fun s => a s ^ 2) - sampleAvg a ^ 2 := by
  have h : (n : ℝ) ≠ 0 := by exact_mod_cast hn
  unfold npVarVec sampleAvg
  generalize hm : (∑ r, a r) / (n : ℝ) = m
  have hs : ∑ r, a r = n * m := by rw [← hm]; field_simp
  have : ∑ s, (a s - m) ^ 2 = ∑ s, a s ^ 2 - n * m ^ 2 := by
    have e : ∀ s, (a s - m) ^ 2 = a s ^ 2 - 2 * m * a s + m ^ 2 := fun s => by ring
    simp only [e, Finset.sum_add_distrib, Finset.sum_sub_distrib, ← Finset.mul_sum, hs,
      Finset.sum_const, Finset.card_univ, Fintype.card_fin, nsmul_eq_mul]
    ring
  rw [this]
  field_simp

theorem stdDev_eq {n : Nat} (hn : n ≠ 0) (a : Fin n → ℝ) :
    stdDev a = ‖WithLp.toLp 2 (fun s => a s - sampleAvg a)‖ / Real.sqrt n := by
  rw [stdDev, ← npVarVec_eq hn, EuclideanSpace.norm_eq, ← Real.sqrt_div' _ (by positivity), npVarVec]
  congr 1
  simp [sampleAvg]

theorem stdDev_sum_le {n : Nat} (hn : n ≠ 0) {ι : Type*} (J : Finset ι) (c : ι → ℝ) (hc : ∀ i ∈ J, 0 ≤ c i)
    (v : ι → Fin n → ℝ) : stdDev (fun s => ∑ i ∈ J, c i * v i s) ≤ ∑ i ∈ J, c i * stdDev (v i) := by
  have e : WithLp.toLp 2 (fun s => (∑ i ∈ J, c i * v i s) - sampleAvg (fun s => ∑ i ∈ J, c i * v i s)) =
      ∑ i ∈ J, c i • WithLp.toLp 2 (fun s => v i s - sampleAvg (v i)) := by
    have ha : sampleAvg (fun s => ∑ i ∈ J, c i * v i s) = ∑ i ∈ J, c i * sampleAvg (v i) := by
      unfold sampleAvg
      rw [Finset.sum_comm, Finset.sum_div]
      refine Finset.sum_congr rfl fun i _ => ?_
      rw [← Finset.mul_sum, mul_div_assoc]
    ext s
    simp only [WithLp.ofLp_sum, WithLp.ofLp_smul, Finset.sum_apply, Pi.smul_apply, smul_eq_mul, ha]
    rw [← Finset.sum_sub_distrib]
    exact Finset.sum_congr rfl fun i _ => by ring
  rw [stdDev_eq hn, e]
  calc _ ≤ (∑ i ∈ J, ‖c i • WithLp.toLp 2 (fun s => v i s - sampleAvg (v i))‖) / Real.sqrt n :=
        div_le_div_of_nonneg_right (norm_sum_le _ _) (Real.sqrt_nonneg _)
    _ = _ := by
      rw [Finset.sum_div]
      refine Finset.sum_congr rfl fun i hi => ?_
      rw [norm_smul, Real.norm_of_nonneg (hc i hi), stdDev_eq hn, mul_div_assoc]

theorem linUtil_sum {d : Nat} (w : Fin d → ℝ) {ι : Type*} (J : Finset ι) (c : ι → ℝ) (y : ι → Fin d → ℝ) :
    linUtil w (fun k => ∑ i ∈ J, c i * y i k) = ∑ i ∈ J, c i * linUtil w (y i) := by
  unfold linUtil
  simp only [Finset.mul_sum]
  rw [Finset.sum_comm]
  exact Finset.sum_congr rfl fun i _ => Finset.sum_congr rfl fun k _ => by ring

theorem optimistic_sum_le {n d : Nat} (hn : n ≠ 0) {alpha : ℝ} (ha : 0 ≤ alpha) (w : Fin d → ℝ)
    (ws : Fin n → Fin d → ℝ) {ι : Type*} (J : Finset ι) (c : ι → ℝ) (hc : ∀ i ∈ J, 0 ≤ c i)
    (y : ι → Fin d → ℝ) :
    optimistic alpha w ws (fun k => ∑ i ∈ J, c i * y i k) ≤ ∑ i ∈ J, c i * optimistic alpha w ws (y i) := by
  unfold optimistic
  simp only [linUtil_sum, mul_add, Finset.sum_add_distrib]
  refine add_le_add le_rfl ?_
  refine (mul_le_mul_of_nonneg_left (stdDev_sum_le hn J c hc fun i s => linUtil (ws s) (y i)) ha).trans_eq ?_
  rw [Finset.mul_sum]
  exact Finset.sum_congr rfl fun i _ => by ring

theorem optimistic_scale {n d : Nat} (hn : n ≠ 0) (alpha : ℝ) (w : Fin d → ℝ) (ws : Fin n → Fin d → ℝ)
    {c : ℝ} (hc : 0 ≤ c) (x : Fin d → ℝ) :
    optimistic alpha w ws (fun k => c * x k) = c * optimistic alpha w ws x := by
  have h : ∀ v : Fin d → ℝ, linUtil v (fun k => c * x k) = c * linUtil v x := by
    intro v
    unfold linUtil
    rw [Finset.mul_sum]
    exact Finset.sum_congr rfl fun k _ => by ring
  have e : ∀ a : Fin n → ℝ, stdDev (fun s => c * a s) = c * stdDev a := by
    intro a
    unfold stdDev
    rw [← Real.sqrt_sq hc, ← Real.sqrt_mul (sq_nonneg c), Real.sqrt_sq hc]
    congr 1
    unfold sampleAvg
    simp only [mul_pow, ← Finset.mul_sum]
    ring
  unfold optimistic
  simp only [h, e]
  ring

end Lop
