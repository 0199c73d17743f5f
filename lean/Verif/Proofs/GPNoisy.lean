import Verif.Proofs.GPLearns
import Verif.Proofs.UcbRegret
import Verif.Spec.GPNoisy

/-! # Helper lemmas: the predictions of `GP` are fixed combinations of the measured values -/

namespace Lop

open Spec Matrix MeasureTheory

variable {d n : Nat}

/-- The mean is a combination of the measured values with weights that do not depend on them, and the variance splits into the part of the
points and the part of the noise. -/
theorem gp_weights {k : KExpr ℝ (Pt d)} {g : Pt d → Pt d → ℝ}
    (hg : ∀ {n m : Nat} (X : Fin n → Pt d) (Y : Fin m → Pt d) c, k.cov X Y = .ok c → ∀ i j, c i j = g (X i) (Y j))
    (mean : Pt d → ℝ) (T : Nat) (z : Nat → Pt d) (s : Nat → ℝ) (X : Fin n → Pt d) (i : Fin n) :
    ∃ w : Fin T → ℝ, ∀ (y : Nat → ℝ) (p : GPPred n),
      gpRegress (kcov k) mean (some ((List.range T).map fun t => (z t, y t, s t))) X = .ok p →
      p.mu i = (w ⬝ᵥ fun t => y t) + mean (X i) ∧
      p.cov i i = (g (X i) (X i) - 2 * (w ⬝ᵥ fun j => g (X i) (z j)) +
        w ⬝ᵥ ((Matrix.of fun a b : Fin T => g (z a) (z b)) *ᵥ w)) + ∑ j : Fin T, s j * w j ^ 2 := by
  set K : Matrix (Fin T) (Fin T) ℝ := Matrix.of fun a b => g (z a) (z b) with hK
  set D0 := K + diagonal (fun j : Fin T => s j) with hD0
  set b : Fin T → ℝ := fun j => g (X i) (z j) with hb
  refine ⟨D0⁻¹ *ᵥ b, fun y p hp => ?_⟩
  set rows := (List.range T).map fun t => (z t, y t, s t) with hrows
  have hl : rows.length = T := by simp [hrows]
  obtain ⟨D, hDd, hD, hmu, -, hcov⟩ := gp_entries hg hp
  set e : Fin rows.length ≃ Fin T := finCongr hl with he
  have hget : ∀ j, rows.get j = (z (e j), y (e j), s (e j)) := by
    intro j
    simp [hrows, he]
  have hDs : D = D0.submatrix e e := by
    ext a c
    rw [hDd]
    simp only [Matrix.add_apply, Matrix.of_apply, diagonal_apply, submatrix_apply, hD0, hK, hget]
    by_cases hac : a = c <;> simp [hac]
  have hD0p : D0.PosDef := by
    have h := hD.submatrix (e := e.symm) e.symm.injective
    rw [hDs] at h
    simpa using h
  have hinv : ∀ u v : Fin T → ℝ, (fun j => u (e j)) ⬝ᵥ (D⁻¹ *ᵥ fun j => v (e j)) = u ⬝ᵥ (D0⁻¹ *ᵥ v) := by
    intro u v
    rw [hDs, inv_submatrix_equiv]
    simp only [dotProduct, mulVec, submatrix_apply]
    refine Fintype.sum_equiv e _ _ fun a => ?_
    congr 1
    exact Fintype.sum_equiv e _ _ fun c => rfl
  have hu : IsUnit D0.det := (Matrix.isUnit_iff_isUnit_det _).1 hD0p.isUnit
  have hsym : (D0⁻¹)ᵀ = D0⁻¹ := by
    have := hD0p.isHermitian.eq
    rw [conjTranspose_eq_transpose_of_trivial] at this
    rw [transpose_nonsing_inv, this]
  set w := D0⁻¹ *ᵥ b with hw
  have e0 : ∀ v, b ⬝ᵥ (D0⁻¹ *ᵥ v) = w ⬝ᵥ v := fun v => by
    rw [dotProduct_mulVec, ← mulVec_transpose, hsym]
  constructor
  · rw [hmu i, ← e0, ← hinv]
    simp only [hget, hb]
  · have h1 : p.cov i i = g (X i) (X i) - w ⬝ᵥ b := by
      rw [hcov i, ← e0, ← hinv]
      simp only [hget, hb]
    have e1 : D0 *ᵥ w = b := by rw [hw, mulVec_mulVec, mul_nonsing_inv _ hu, one_mulVec]
    have e3 : w ⬝ᵥ (D0 *ᵥ w) = w ⬝ᵥ (K *ᵥ w) + ∑ j : Fin T, s j * w j ^ 2 := by
      rw [hD0, add_mulVec, dotProduct_add]
      congr 1
      simp only [dotProduct, mulVec_diagonal]
      exact Finset.sum_congr rfl fun j _ => by ring
    rw [e1] at e3
    rw [h1]
    linarith

variable {Ω : Type*} [MeasurableSpace Ω] {μ : Measure Ω} [IsProbabilityMeasure μ]

/-- Mean square of a constant minus a combination of the errors. -/
theorem error_square {s : Nat → ℝ} {err : Nat → Ω → ℝ} (h : IsError μ s err) {T : Nat} (w : Fin T → ℝ) (c : ℝ) :
    Integrable (fun ω => (c - w ⬝ᵥ fun t => err t ω) ^ 2) μ ∧
      ∫ ω, (c - w ⬝ᵥ fun t => err t ω) ^ 2 ∂μ ≤ c ^ 2 + ∑ j : Fin T, s j * w j ^ 2 := by
  have hi1 : ∀ t, Integrable (err t) μ := fun t => (h.square t).integrable (by norm_num)
  have hi2 : ∀ t u, Integrable (fun ω => err t ω * err u ω) μ := fun t u => (h.square t).integrable_mul (h.square u)
  have hlin : Integrable (fun ω => w ⬝ᵥ fun t => err t ω) μ :=
    integrable_finsetSum _ fun (j : Fin T) _ => (hi1 j).const_mul (w j)
  have hterm : ∀ a b : Fin T, Integrable (fun ω => (w a * err a ω) * (w b * err b ω)) μ := fun a b =>
    ((hi2 a b).const_mul (w a * w b)).congr (.of_forall fun ω => by ring)
  have hsqe : ∀ ω, (w ⬝ᵥ fun t => err t ω) ^ 2 = ∑ a, ∑ b, (w a * err a ω) * (w b * err b ω) := fun ω => by
    rw [sq]
    simp only [dotProduct]
    rw [Finset.sum_mul_sum]
  have hsq : Integrable (fun ω => (w ⬝ᵥ fun t => err t ω) ^ 2) μ := by
    simp_rw [hsqe]
    exact integrable_finsetSum _ fun a _ => integrable_finsetSum _ fun b _ => hterm a b
  have hm : ∫ ω, (w ⬝ᵥ fun t => err t ω) ∂μ = 0 := by
    simp only [dotProduct]
    rw [integral_finsetSum _ fun (j : Fin T) _ => (hi1 j).const_mul (w j)]
    refine Finset.sum_eq_zero fun j _ => ?_
    rw [integral_const_mul, h.mean, mul_zero]
  have hs : ∫ ω, (w ⬝ᵥ fun t => err t ω) ^ 2 ∂μ ≤ ∑ j : Fin T, s j * w j ^ 2 := by
    simp_rw [hsqe]
    rw [integral_finsetSum _ fun a _ => integrable_finsetSum _ fun b _ => hterm a b]
    refine Finset.sum_le_sum fun a _ => ?_
    rw [integral_finsetSum _ fun b _ => hterm a b, Finset.sum_eq_single a]
    · have e : ∫ ω, (w a * err a ω) * (w a * err a ω) ∂μ = w a ^ 2 * ∫ ω, err a ω ^ 2 ∂μ := by
        rw [← integral_const_mul]
        exact integral_congr_ae (.of_forall fun ω => by ring)
      rw [e, mul_comm]
      exact mul_le_mul_of_nonneg_right (h.size a) (sq_nonneg _)
    · intro b _ hba
      have e : ∫ ω, (w a * err a ω) * (w b * err b ω) ∂μ = w a * w b * ∫ ω, err a ω * err b ω ∂μ := by
        rw [← integral_const_mul]
        exact integral_congr_ae (.of_forall fun ω => by ring)
      rw [e, h.apart a b (fun hab => hba (Fin.ext hab).symm), mul_zero]
    · simp
  have hex : (fun ω => (c - w ⬝ᵥ fun t => err t ω) ^ 2) =
      fun ω => (c ^ 2 - 2 * c * (w ⬝ᵥ fun t => err t ω)) + (w ⬝ᵥ fun t => err t ω) ^ 2 := by
    funext ω; ring
  have hl2 : Integrable (fun ω => c ^ 2 - 2 * c * (w ⬝ᵥ fun t => err t ω)) μ :=
    (integrable_const _).sub (hlin.const_mul _)
  rw [hex]
  refine ⟨hl2.add hsq, ?_⟩
  rw [integral_add hl2 hsq, integral_sub (integrable_const _) (hlin.const_mul _), integral_const_mul, hm]
  simp
  linarith

end Lop
