import Verif.Proofs.GPNoisy
import Verif.Spec.GPPosterior

/-! # Helper lemmas: the predictions of `GP` as a projection -/

namespace Lop

open Spec Matrix MeasureTheory

variable {d n : Nat}

/-- Weights and covariances of a prediction. -/
theorem gp_linear {k : KExpr ℝ (Pt d)} {g : Pt d → Pt d → ℝ}
    (hg : ∀ {n m : Nat} (X : Fin n → Pt d) (Y : Fin m → Pt d) c, k.cov X Y = .ok c → ∀ i j, c i j = g (X i) (Y j))
    {mean : Pt d → ℝ} {T : Nat} {z : Nat → Pt d} {s : Nat → ℝ} {X : Fin n → Pt d} {y : Nat → ℝ} {p : GPPred n}
    (hp : gpRegress (kcov k) mean (some ((List.range T).map fun t => (z t, y t, s t))) X = .ok p)
    {D : Matrix (Fin T) (Fin T) ℝ} (hD : D = (Matrix.of fun a b : Fin T => g (z a) (z b)) + diagonal fun j : Fin T => s j) :
    D.PosDef ∧ (∀ i, p.mu i = ((D⁻¹ *ᵥ fun t : Fin T => g (X i) (z t)) ⬝ᵥ fun t => y t) + mean (X i)) ∧
      ∀ i j, p.cov i j = g (X i) (X j) - (D⁻¹ *ᵥ fun t : Fin T => g (X i) (z t)) ⬝ᵥ fun t => g (X j) (z t) := by
  set rows := (List.range T).map fun t => (z t, y t, s t) with hrows
  have hl : rows.length = T := by simp [hrows]
  obtain ⟨A, B, C, hA, hB, hC, hpd, hcov, hmu, -⟩ := gpRegress_inv hp
  set e : Fin rows.length ≃ Fin T := finCongr hl with he
  have hget : ∀ j, rows.get j = (z (e j), y (e j), s (e j)) := by
    intro j
    simp [hrows, he]
  set E := C + diagonal (fun j => (rows.get j).2.2) with hE
  have hDs : E = D.submatrix e e := by
    ext a c
    simp only [hE, hD, Matrix.add_apply, diagonal_apply, submatrix_apply, Matrix.of_apply, hg _ _ C hC, hget]
    by_cases hac : a = c <;> simp [hac]
  have hDp : D.PosDef := by
    have h := hpd.submatrix (e := e.symm) e.symm.injective
    rw [hDs] at h
    simpa using h
  have hsym : (D⁻¹)ᵀ = D⁻¹ := by
    have := hDp.isHermitian.eq
    rw [conjTranspose_eq_transpose_of_trivial] at this
    rw [transpose_nonsing_inv, this]
  have hinv : ∀ u v : Fin T → ℝ, (fun j => u (e j)) ⬝ᵥ (E⁻¹ *ᵥ fun j => v (e j)) = (D⁻¹ *ᵥ u) ⬝ᵥ v := by
    intro u v
    have h1 : (D⁻¹ *ᵥ u) ⬝ᵥ v = u ⬝ᵥ (D⁻¹ *ᵥ v) := by
      rw [dotProduct_mulVec, ← mulVec_transpose, hsym]
    rw [h1, hDs, inv_submatrix_equiv]
    simp only [dotProduct, mulVec, submatrix_apply]
    refine Fintype.sum_equiv e _ _ fun a => ?_
    congr 1
    exact Fintype.sum_equiv e _ _ fun c => rfl
  refine ⟨hDp, fun i => ?_, fun i j => ?_⟩
  · rw [hmu i, ← hinv]
    congr 1
    simp only [mulVec, dotProduct, hget, hg _ _ B hB]
  · rw [hcov, Matrix.sub_apply, hg _ _ A hA, ← hinv]
    congr 1
    simp only [Matrix.mul_apply, dotProduct, mulVec, Matrix.transpose_apply, hg _ _ B hB, hget]

variable {Ω : Type*} [MeasurableSpace Ω] {μ : Measure Ω}

theorem memLp_mul {A B : Ω → ℝ} (hA : MemLp A 2 μ) (hB : MemLp B 2 μ) : Integrable (fun ω => A ω * B ω) μ := hA.integrable_mul hB

/-- A combination of square integrable variables. -/
theorem memLp_comb {T : Nat} {U : Fin T → Ω → ℝ} (hU : ∀ t, MemLp (U t) 2 μ) (a : Fin T → ℝ) :
    MemLp (fun ω => a ⬝ᵥ fun t => U t ω) 2 μ := by
  simp only [dotProduct]
  exact memLp_finsetSum _ fun t _ => (hU t).const_mul (a t)

/-- The product with a combination. -/
theorem integral_mul_comb {T : Nat} {A : Ω → ℝ} {U : Fin T → Ω → ℝ} (hA : MemLp A 2 μ) (hU : ∀ t, MemLp (U t) 2 μ) (a : Fin T → ℝ) :
    ∫ ω, A ω * (a ⬝ᵥ fun t => U t ω) ∂μ = a ⬝ᵥ fun t => ∫ ω, A ω * U t ω ∂μ := by
  simp only [dotProduct, Finset.mul_sum]
  rw [integral_finsetSum]
  · refine Finset.sum_congr rfl fun t _ => ?_
    rw [← integral_const_mul]
    exact integral_congr_ae (.of_forall fun ω => by ring)
  · intro t _
    exact ((memLp_mul hA (hU t)).const_mul (a t)).congr (.of_forall fun ω => by simp only [Pi.mul_apply]; ring)

/-- The residual of the best combination is orthogonal to what it combines, and the products of residuals are the posterior covariances. -/
theorem residual_facts {T : Nat} {A : Fin n → Ω → ℝ} {U : Fin T → Ω → ℝ} (hA : ∀ i, MemLp (A i) 2 μ) (hU : ∀ t, MemLp (U t) 2 μ)
    {b : Fin n → Fin T → ℝ} {D : Matrix (Fin T) (Fin T) ℝ} (hD : D.PosDef) (hb : ∀ i t, ∫ ω, A i ω * U t ω ∂μ = b i t)
    (hUU : ∀ t u, ∫ ω, U t ω * U u ω ∂μ = D t u) {R : Fin n → Ω → ℝ} (hR : ∀ i ω, R i ω = A i ω - (D⁻¹ *ᵥ b i) ⬝ᵥ fun t => U t ω) :
    (∀ i, MemLp (R i) 2 μ) ∧ (∀ i t, ∫ ω, R i ω * U t ω ∂μ = 0) ∧
      ∀ i j, ∫ ω, R i ω * R j ω ∂μ = ∫ ω, A i ω * A j ω ∂μ - (D⁻¹ *ᵥ b i) ⬝ᵥ b j := by
  have hR' : ∀ i, R i = fun ω => A i ω - (D⁻¹ *ᵥ b i) ⬝ᵥ fun t => U t ω := fun i => funext (hR i)
  have hRm : ∀ i, MemLp (R i) 2 μ := fun i => by
    rw [hR']
    exact (hA i).sub (memLp_comb hU _)
  have hu : IsUnit D.det := (Matrix.isUnit_iff_isUnit_det _).1 hD.isUnit
  have horth : ∀ i t, ∫ ω, R i ω * U t ω ∂μ = 0 := by
    intro i t
    have e : ∫ ω, R i ω * U t ω ∂μ = ∫ ω, A i ω * U t ω ∂μ - ∫ ω, U t ω * ((D⁻¹ *ᵥ b i) ⬝ᵥ fun u => U u ω) ∂μ := by
      rw [← integral_sub (memLp_mul (hA i) (hU t)) (memLp_mul (hU t) (memLp_comb hU _))]
      exact integral_congr_ae (.of_forall fun ω => by simp only [hR, Pi.mul_apply]; ring)
    rw [e, integral_mul_comb (hU t) hU, hb]
    have h2 : ((D⁻¹ *ᵥ b i) ⬝ᵥ fun u => ∫ ω, U t ω * U u ω ∂μ) = (D *ᵥ (D⁻¹ *ᵥ b i)) t := by
      simp only [hUU, mulVec, dotProduct]
      exact Finset.sum_congr rfl fun u _ => by ring
    rw [h2, mulVec_mulVec, mul_nonsing_inv _ hu, one_mulVec, sub_self]
  refine ⟨hRm, horth, fun i j => ?_⟩
  have e : ∫ ω, R i ω * R j ω ∂μ = ∫ ω, A j ω * R i ω ∂μ - ∫ ω, R i ω * ((D⁻¹ *ᵥ b j) ⬝ᵥ fun u => U u ω) ∂μ := by
    rw [← integral_sub (memLp_mul (hA j) (hRm i)) (memLp_mul (hRm i) (memLp_comb hU _))]
    exact integral_congr_ae (.of_forall fun ω => by simp only [hR, Pi.mul_apply]; ring)
  have e2 : ∫ ω, A j ω * R i ω ∂μ = ∫ ω, A i ω * A j ω ∂μ - ∫ ω, A j ω * ((D⁻¹ *ᵥ b i) ⬝ᵥ fun u => U u ω) ∂μ := by
    rw [← integral_sub (memLp_mul (hA i) (hA j)) (memLp_mul (hA j) (memLp_comb hU _))]
    exact integral_congr_ae (.of_forall fun ω => by simp only [hR, Pi.mul_apply]; ring)
  rw [e, integral_mul_comb (hRm i) hU, e2, integral_mul_comb (hA j) hU]
  simp only [horth, hb]
  simp [dotProduct]

end Lop
