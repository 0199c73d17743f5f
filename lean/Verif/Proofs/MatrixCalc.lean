import Verif.Spec.Evidence
import Mathlib.Analysis.Calculus.Deriv.Mul
import Mathlib.Analysis.Calculus.Deriv.Add
import Mathlib.Analysis.Calculus.Deriv.Inv
import Mathlib.LinearAlgebra.Matrix.Adjugate
import Mathlib.LinearAlgebra.Matrix.NonsingularInverse
import Mathlib.LinearAlgebra.Matrix.PosDef
import Mathlib.Analysis.Matrix.Order
import Mathlib.MeasureTheory.Measure.Lebesgue.Basic
import Mathlib.MeasureTheory.Integral.Pi
import Mathlib.Analysis.SpecialFunctions.Gaussian.GaussianIntegral
import Mathlib.Tactic.Linarith
import Mathlib.Tactic.Ring
import Mathlib.Tactic.FieldSimp
import Mathlib.Tactic.Positivity

/-! # Derivatives of matrix-valued functions and the Gaussian integral in several variables -/

namespace Lop

open Matrix Finset Spec

variable {n m l : Type*} [Fintype n] [Fintype m] [Fintype l] [DecidableEq n]

theorem Spec.MatDeriv.const (M : Matrix m l ℝ) (t : ℝ) : MatDeriv (fun _ => M) 0 t := fun i j => by
  simpa using hasDerivAt_const t (M i j)

theorem Spec.MatDeriv.add {M N : ℝ → Matrix m l ℝ} {M' N' : Matrix m l ℝ} {t : ℝ} (hM : MatDeriv M M' t)
    (hN : MatDeriv N N' t) : MatDeriv (fun s => M s + N s) (M' + N') t := fun i j => by
  exact (hM i j).add (hN i j)

theorem Spec.MatDeriv.mul {M : ℝ → Matrix m n ℝ} {N : ℝ → Matrix n l ℝ} {M' : Matrix m n ℝ} {N' : Matrix n l ℝ} {t : ℝ}
    (hM : MatDeriv M M' t) (hN : MatDeriv N N' t) :
    MatDeriv (fun s => M s * N s) (M' * N t + M t * N') t := fun i j => by
  have := HasDerivAt.fun_sum (u := univ) (fun k _ => (hM i k).mul (hN k j))
  simpa [Matrix.mul_apply, sum_add_distrib] using this

theorem Spec.MatDeriv.mulVec {M : ℝ → Matrix m n ℝ} {M' : Matrix m n ℝ} {v : ℝ → n → ℝ} {v' : n → ℝ} {t : ℝ}
    (hM : MatDeriv M M' t) (hv : ∀ i, HasDerivAt (fun s => v s i) (v' i) t) (i : m) :
    HasDerivAt (fun s => (M s *ᵥ v s) i) ((M' *ᵥ v t + M t *ᵥ v') i) t := by
  have := HasDerivAt.fun_sum (u := univ) (fun k _ => (hM i k).mul (hv k))
  simpa [Matrix.mulVec, dotProduct, sum_add_distrib] using this

theorem hasDerivAt_dotProduct {v w : ℝ → n → ℝ} {v' w' : n → ℝ} {t : ℝ}
    (hv : ∀ i, HasDerivAt (fun s => v s i) (v' i) t) (hw : ∀ i, HasDerivAt (fun s => w s i) (w' i) t) :
    HasDerivAt (fun s => v s ⬝ᵥ w s) (v' ⬝ᵥ w t + v t ⬝ᵥ w') t := by
  have := HasDerivAt.fun_sum (u := univ) (fun k _ => (hv k).mul (hw k))
  simpa [dotProduct, sum_add_distrib] using this

/-- Jacobi's formula. -/
theorem Spec.MatDeriv.det {M : ℝ → Matrix n n ℝ} {M' : Matrix n n ℝ} {t : ℝ} (hM : MatDeriv M M' t) :
    HasDerivAt (fun s => (M s).det) ((adjugate (M t) * M').trace) t := by
  have h1 : HasDerivAt (fun s => (M s).det)
      (∑ σ : Equiv.Perm n, (Equiv.Perm.sign σ : ℝ) * ∑ i, (∏ j ∈ univ.erase i, M t (σ j) j) * M' (σ i) i) t := by
    have := HasDerivAt.fun_sum (u := univ) (x := t) (fun (σ : Equiv.Perm n) _ =>
      (HasDerivAt.fun_finsetProd (u := univ) (fun i _ => hM (σ i) i)).const_mul ((Equiv.Perm.sign σ : ℤ) : ℝ))
    simp only [Matrix.det_apply']
    simpa using this
  convert h1 using 1
  have h2 : ∀ i, (adjugate (M t) * M') i i = ((M t).updateCol i (fun k => M' k i)).det := by
    intro i
    rw [← cramer_apply, cramer_eq_adjugate_mulVec]
    rfl
  simp only [Matrix.trace, Matrix.diag, h2, Matrix.det_apply', mul_sum]
  rw [sum_comm]
  refine sum_congr rfl fun σ _ => sum_congr rfl fun i _ => ?_
  rw [← mul_prod_erase univ _ (mem_univ i), Matrix.updateCol_self]
  rw [prod_congr rfl (g := fun j => M t (σ j) j)]
  · ring
  · intro j hj
    rw [Matrix.updateCol_ne (ne_of_mem_erase hj)]

/-- Derivative of the inverse of a matrix. -/
theorem Spec.MatDeriv.inv {M : ℝ → Matrix n n ℝ} {M' : Matrix n n ℝ} {t : ℝ} (hM : MatDeriv M M' t)
    (hu : IsUnit (M t).det) : MatDeriv (fun s => (M s)⁻¹) (-((M t)⁻¹ * M' * (M t)⁻¹)) t := by
  have hdet := hM.det
  have hne : (M t).det ≠ 0 := hu.ne_zero
  have hdiff : ∀ i j, DifferentiableAt ℝ (fun s => (M s)⁻¹ i j) t := by
    intro i j
    have hadj : DifferentiableAt ℝ (fun s => (M s).adjugate i j) t := by
      simp only [adjugate_apply]
      have : MatDeriv (fun s => (M s).updateRow j (Pi.single i 1)) (M'.updateRow j 0) t := by
        intro a b
        by_cases ha : a = j
        · subst ha
          simpa using hasDerivAt_const t ((Pi.single i (1 : ℝ) : n → ℝ) b)
        · simpa [Matrix.updateRow_ne ha] using hM a b
      exact this.det.differentiableAt
    have : (fun s => (M s)⁻¹ i j) = fun s => ((M s).det)⁻¹ * (M s).adjugate i j := by
      funext s
      rw [Matrix.inv_def, Ring.inverse_eq_inv']
      rfl
    rw [this]
    exact (hdet.differentiableAt.inv hne).mul hadj
  have hI : MatDeriv (fun s => (M s)⁻¹) (Matrix.of fun i j => deriv (fun s => (M s)⁻¹ i j) t) t :=
    fun i j => (hdiff i j).hasDerivAt
  have hprod := hM.mul hI
  have hev : ∀ᶠ s in nhds t, M s * (M s)⁻¹ = 1 := by
    filter_upwards [hdet.continuousAt.eventually_ne hne] with s hs
    exact Matrix.mul_nonsing_inv _ (isUnit_iff_ne_zero.2 hs)
  have hzero : M' * (M t)⁻¹ + M t * (Matrix.of fun i j => deriv (fun s => (M s)⁻¹ i j) t) = 0 := by
    ext i j
    have h1 := hprod i j
    have h2 : HasDerivAt (fun s => (M s * (M s)⁻¹) i j) 0 t := by
      refine (hasDerivAt_const t ((1 : Matrix n n ℝ) i j)).congr_of_eventuallyEq ?_
      filter_upwards [hev] with s hs
      rw [hs]
    exact h1.unique h2
  have : (Matrix.of fun i j => deriv (fun s => (M s)⁻¹ i j) t) = -((M t)⁻¹ * M' * (M t)⁻¹) := by
    have h := congrArg (fun X => (M t)⁻¹ * X) hzero
    simp only [Matrix.mul_add, Matrix.mul_zero, ← Matrix.mul_assoc, Matrix.nonsing_inv_mul _ hu, Matrix.one_mul] at h
    exact eq_neg_of_add_eq_zero_right h
  rw [← this]
  exact hI

/-- Derivative of the logarithm of a determinant. -/
theorem Spec.MatDeriv.log_det {M : ℝ → Matrix n n ℝ} {M' : Matrix n n ℝ} {t : ℝ} (hM : MatDeriv M M' t)
    (hu : (M t).det ≠ 0) : HasDerivAt (fun s => Real.log (M s).det) (((M t)⁻¹ * M').trace) t := by
  have := hM.det.log hu
  convert this using 1
  rw [Matrix.inv_def, Ring.inverse_eq_inv', Matrix.smul_mul, Matrix.trace_smul, smul_eq_mul]
  field_simp

open MeasureTheory

/-- The Gaussian integral in several variables. -/
theorem integral_gaussian_matrix (A : Matrix n n ℝ) (hA : A.PosDef) :
    ∫ x : n → ℝ, Real.exp (-(x ⬝ᵥ (A *ᵥ x)) / 2) = Real.sqrt ((2 * Real.pi) ^ Fintype.card n / A.det) := by
  open scoped MatrixOrder in
  obtain ⟨B, hB⟩ := CStarAlgebra.nonneg_iff_eq_star_mul_self.mp hA.posSemidef.nonneg
  have hBt : A = Bᵀ * B := by rw [hB, star_eq_conjTranspose, conjTranspose_eq_transpose_of_trivial]
  have hdet : A.det = B.det ^ 2 := by rw [hBt, det_mul, det_transpose, sq]
  have hBd : B.det ≠ 0 := by
    intro h
    have := hA.det_pos
    rw [hdet, h] at this
    simp at this
  have hq : ∀ x : n → ℝ, x ⬝ᵥ (A *ᵥ x) = ∑ i, (B *ᵥ x) i ^ 2 := by
    intro x
    rw [hBt, ← mulVec_mulVec, dotProduct_mulVec, vecMul_transpose]
    simp [dotProduct, sq]
  have h0 : ∫ y : n → ℝ, Real.exp (-(∑ i, y i ^ 2) / 2) = Real.sqrt (2 * Real.pi) ^ Fintype.card n := by
    have : ∀ y : n → ℝ, Real.exp (-(∑ i, y i ^ 2) / 2) = ∏ i, Real.exp (-(1 / 2) * y i ^ 2) := by
      intro y
      rw [← Real.exp_sum, ← mul_sum]
      congr 1
      ring
    simp only [this]
    rw [integral_fintype_prod_volume_eq_pow (fun x : ℝ => Real.exp (-(1 / 2) * x ^ 2)), integral_gaussian]
    congr 2
    field_simp
  have hmap := Real.map_matrix_volume_pi_eq_smul_volume_pi hBd
  have hemb : MeasurableEmbedding (toLin' B) := by
    have e : LinearMap.det (toLin' B) ≠ 0 := by rwa [LinearMap.det_toLin']
    let E := (LinearMap.equivOfDetNeZero _ e).toContinuousLinearEquiv.toHomeomorph.toMeasurableEquiv
    exact E.measurableEmbedding
  have h1 := hemb.integral_map (μ := volume) (fun y : n → ℝ => Real.exp (-(∑ i, y i ^ 2) / 2))
  rw [hmap, integral_smul_measure, h0] at h1
  simp only [hq]
  have h2 : ∀ x, (toLin' B) x = B *ᵥ x := fun x => toLin'_apply B x
  simp only [h2] at h1
  rw [← h1, ENNReal.toReal_ofReal (abs_nonneg _), smul_eq_mul, Real.sqrt_div (by positivity), hdet,
    Real.sqrt_sq_eq_abs, abs_inv]
  have hp : Real.sqrt ((2 * Real.pi) ^ Fintype.card n) = Real.sqrt (2 * Real.pi) ^ Fintype.card n := by
    rw [Real.sqrt_eq_iff_mul_self_eq (by positivity) (by positivity), ← mul_pow,
      Real.mul_self_sqrt (by positivity)]
  rw [hp, div_eq_mul_inv, mul_comm]

end Lop
