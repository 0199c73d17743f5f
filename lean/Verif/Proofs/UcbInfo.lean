import Verif.Proofs.GPChain
import Mathlib.Analysis.MeanInequalities
import Mathlib.Analysis.Matrix.PosDef
import Mathlib.LinearAlgebra.Matrix.SchurComplement

/-! # Lemmas: how much measurements of a function with few features can tell -/

namespace Lop

open Spec Matrix

variable {d : Nat}

/-- Determinant and trace. -/
theorem log_det_le {ι : Type*} [Fintype ι] [DecidableEq ι] [Nonempty ι] {M : Matrix ι ι ℝ} (hM : M.PosDef) :
    Real.log M.det ≤ Fintype.card ι * Real.log (M.trace / Fintype.card ι) := by
  have hn : (0 : ℝ) < Fintype.card ι := by exact_mod_cast Fintype.card_pos
  have hp := hM.eigenvalues_pos
  have hdet := hM.isHermitian.det_eq_prod_eigenvalues
  have htr := hM.isHermitian.trace_eq_sum_eigenvalues
  simp only [RCLike.ofReal_real_eq_id, id] at hdet htr
  have h := Real.geom_mean_le_arith_mean_weighted Finset.univ (fun _ : ι => (Fintype.card ι : ℝ)⁻¹) hM.isHermitian.eigenvalues
    (fun _ _ => by positivity) (by simp [hn.ne']) fun i _ => (hp i).le
  rw [← Finset.mul_sum] at h
  have h2 := Real.log_le_log (Finset.prod_pos fun i _ => Real.rpow_pos_of_pos (hp i) _) h
  rw [Real.log_prod fun i _ => (Real.rpow_pos_of_pos (hp i) _).ne'] at h2
  simp only [Real.log_rpow (hp _)] at h2
  rw [← Finset.mul_sum, ← Real.log_prod fun i _ => (hp i).ne', ← hdet, ← htr, inv_mul_eq_div, inv_mul_eq_div, div_le_iff₀ hn] at h2
  linarith

/-- Measurements of finitely many features. -/
theorem log_det_features {ι : Type*} [Fintype ι] [DecidableEq ι] [Nonempty ι] {T : Nat} (P : Matrix (Fin T) ι ℝ) {s : ℝ} (hs : 0 < s) :
    Real.log (1 + s⁻¹ • (P * Pᵀ)).det ≤ Fintype.card ι * Real.log (1 + (P * Pᵀ).trace / (s * Fintype.card ι)) := by
  have hn : (0 : ℝ) < Fintype.card ι := by exact_mod_cast Fintype.card_pos
  have e : (1 + s⁻¹ • (P * Pᵀ)).det = (1 + s⁻¹ • (Pᵀ * P)).det := by
    rw [← Matrix.smul_mul, det_one_add_mul_comm, Matrix.mul_smul]
  have hpsd : (Pᵀ * P).PosSemidef := by
    have := posSemidef_conjTranspose_mul_self P
    rwa [conjTranspose_eq_transpose_of_trivial] at this
  have hM : (1 + s⁻¹ • (Pᵀ * P)).PosDef := PosDef.one.add_posSemidef (hpsd.smul (by positivity))
  rw [e]
  refine (log_det_le hM).trans (le_of_eq ?_)
  congr 2
  rw [trace_add, trace_one, trace_smul, trace_mul_comm, smul_eq_mul]
  field_simp

end Lop
