import Verif.Model.Probability
import Verif.Model.BestProb
import Verif.Spec.Probability

/-! # The Gaussian differences -/

namespace Lop

open Finset MeasureTheory ProbabilityTheory Spec Matrix
open scoped InnerProductSpace

variable {n : Nat}

theorem plOther_eq (i : Fin (n + 1)) (j : Fin n) : plOther i j = i.succAbove j := by
  unfold plOther
  have hi : (List.finRange (n + 1)).idxOf i = i.val := by simp
  rw [List.erase_eq_eraseIdx_of_idxOf hi, List.getD_eq_getElem?_getD, List.getElem?_eraseIdx]
  rcases lt_or_ge j.val i.val with h | h
  · rw [if_pos h, Fin.succAbove_of_castSucc_lt _ _ (by simpa [Fin.lt_def] using h)]
    rw [List.getElem?_eq_getElem (by simp)]
    simp [Fin.ext_iff]
  · rw [if_neg (by omega), Fin.succAbove_of_le_castSucc _ _ (by simpa [Fin.le_def] using h)]
    rw [List.getElem?_eq_getElem (by simp)]
    simp [Fin.ext_iff]

/-- The matrix of the map `x ↦ (x_{idx j} - x_i)_j`. -/
def plDiffMat (i : Fin (n + 1)) : Matrix (Fin n) (Fin (n + 1)) ℝ := fun j l =>
  (if l = i.succAbove j then 1 else 0) - (if l = i then 1 else 0)

theorem plDiffMat_mulVec (i : Fin (n + 1)) (x : Fin (n + 1) → ℝ) (j : Fin n) :
    (plDiffMat i *ᵥ x) j = x (i.succAbove j) - x i := by
  simp [plDiffMat, mulVec, dotProduct, sub_mul, sum_sub_distrib]

theorem plKStar_eq {K : Matrix (Fin (n + 1)) (Fin (n + 1)) ℝ} (hK : K.PosSemidef) (i : Fin (n + 1)) :
    plKStar K i = plDiffMat i * K * (plDiffMat i)ᵀ := by
  ext j k
  have hsym : ∀ a b, K a b = K b a := fun a b => by
    have := hK.isHermitian.apply a b
    simpa using this.symm
  rw [plKStar, plOther_eq, plOther_eq]
  have h1 : ∀ l, (plDiffMat i * K) j l = K (i.succAbove j) l - K i l := by
    intro l
    have := plDiffMat_mulVec i (fun a => K a l) j
    simpa [Matrix.mul_apply, mulVec, dotProduct] using this
  have h2 : (plDiffMat i * K * (plDiffMat i)ᵀ) j k =
      (plDiffMat i * K) j (i.succAbove k) - (plDiffMat i * K) j i := by
    have := plDiffMat_mulVec i (fun a => (plDiffMat i * K) j a) k
    rw [← this]
    simp only [Matrix.mul_apply (M := plDiffMat i * K), mulVec, dotProduct, Matrix.transpose_apply]
    exact sum_congr rfl fun _ _ => mul_comm _ _
  rw [h2, h1, h1, hsym (i.succAbove j) i]
  ring

theorem plMuStar_eq (mu : Fin (n + 1) → ℝ) (i : Fin (n + 1)) : plMuStar mu i = plDiffMat i *ᵥ mu := by
  ext j
  rw [plDiffMat_mulVec, plMuStar, plOther_eq]

theorem plDiffMat_transpose_injective (i : Fin (n + 1)) (x : Fin n → ℝ) (h : (plDiffMat i)ᵀ *ᵥ x = 0) : x = 0 := by
  ext j
  have := congrFun h (i.succAbove j)
  simp [plDiffMat, mulVec, dotProduct, Matrix.transpose_apply, sub_mul, sum_sub_distrib, Fin.succAbove_ne] at this
  simpa using this

theorem plKStar_posDef {K : Matrix (Fin (n + 1)) (Fin (n + 1)) ℝ} (hK : K.PosDef) (i : Fin (n + 1)) :
    (plKStar K i).PosDef := by
  rw [plKStar_eq hK.posSemidef]
  have := hK.mul_mul_conjTranspose_same (B := plDiffMat i) ?_
  · simpa using this
  · intro x y hxy
    have h0 := plDiffMat_transpose_injective i (x - y)
      (by
        rw [mulVec_sub, sub_eq_zero, mulVec_transpose, mulVec_transpose]
        exact hxy)
    exact sub_eq_zero.1 h0

/-- Linear images of Gaussian vectors. -/
theorem map_multivariateGaussian {ι κ : Type} [Fintype ι] [DecidableEq ι] [Fintype κ] [DecidableEq κ]
    (A : Matrix κ ι ℝ) (mu : ι → ℝ) {S : Matrix ι ι ℝ} (hS : S.PosSemidef) :
    (multivariateGaussian (WithLp.toLp 2 mu) S).map (fun x => WithLp.toLp 2 (A *ᵥ x.ofLp)) =
      multivariateGaussian (WithLp.toLp 2 (A *ᵥ mu)) (A * S * Aᵀ) := by
  have hS' : (A * S * Aᵀ).PosSemidef := by
    have := hS.mul_mul_conjTranspose_same A
    simpa using this
  have hmeas : Measurable (fun x : EuclideanSpace ℝ ι => WithLp.toLp 2 (A *ᵥ x.ofLp)) := by
    have : Continuous (fun x : EuclideanSpace ℝ ι => WithLp.toLp 2 (A *ᵥ x.ofLp)) := by
      fun_prop
    exact this.measurable
  haveI : IsProbabilityMeasure ((multivariateGaussian (WithLp.toLp 2 mu) S).map
      (fun x => WithLp.toLp 2 (A *ᵥ x.ofLp))) := Measure.isProbabilityMeasure_map hmeas.aemeasurable
  apply Measure.ext_of_charFun (E := EuclideanSpace ℝ κ)
  ext t
  rw [charFun_multivariateGaussian hS', charFun_apply, integral_map hmeas.aemeasurable (by fun_prop)]
  have hin : ∀ x : EuclideanSpace ℝ ι, ⟪WithLp.toLp 2 (A *ᵥ x.ofLp), t⟫_ℝ = ⟪x, WithLp.toLp 2 (Aᵀ *ᵥ t.ofLp)⟫_ℝ := by
    intro x
    simp only [EuclideanSpace.inner_eq_star_dotProduct, star_trivial]
    rw [Matrix.dotProduct_mulVec, ← Matrix.mulVec_transpose]
  have hch := charFun_multivariateGaussian (μ := WithLp.toLp 2 mu) hS (WithLp.toLp 2 (Aᵀ *ᵥ t.ofLp))
  rw [charFun_apply] at hch
  simp only [hin]
  rw [hch]
  have e1 : ⟪WithLp.toLp 2 (Aᵀ *ᵥ t.ofLp), WithLp.toLp 2 mu⟫_ℝ = ⟪t, WithLp.toLp 2 (A *ᵥ mu)⟫_ℝ := by
    rw [real_inner_comm, ← hin, real_inner_comm]
  have e2 : (Aᵀ *ᵥ t.ofLp) ⬝ᵥ S *ᵥ (Aᵀ *ᵥ t.ofLp) = t.ofLp ⬝ᵥ (A * S * Aᵀ) *ᵥ t.ofLp := by
    rw [Matrix.mulVec_mulVec, Matrix.mulVec_transpose, ← Matrix.dotProduct_mulVec, Matrix.mulVec_mulVec,
      Matrix.mul_assoc]
  rw [e1, e2]

/-- Two coordinates of a non-degenerate Gaussian vector are almost surely different. -/
theorem gaussian_ties_null {N : Nat} {K : Matrix (Fin N) (Fin N) ℝ} (hK : K.PosDef) (mu : Fin N → ℝ) {i j : Fin N}
    (hij : i ≠ j) : (multivariateGaussian (WithLp.toLp 2 mu) K) {x | x i = x j} = 0 := by
  let A : Matrix (Fin 1) (Fin N) ℝ := fun _ l => (if l = i then 1 else 0) - (if l = j then 1 else 0)
  have hA : ∀ x : Fin N → ℝ, ∀ k, (A *ᵥ x) k = x i - x j := by
    intro x k
    simp [A, mulVec, dotProduct, sub_mul, sum_sub_distrib]
  have hmap := map_multivariateGaussian A mu hK.posSemidef
  have hpd : (A * K * Aᵀ).PosDef := by
    have := hK.mul_mul_conjTranspose_same (B := A) ?_
    · simpa using this
    · intro x y hxy
      have := congrFun hxy i
      simp [A, vecMul, dotProduct, hij] at this
      ext k
      rw [Subsingleton.elim k 0]
      exact this
  have hmeas : Measurable (fun x : EuclideanSpace ℝ (Fin N) => WithLp.toLp 2 (A *ᵥ x.ofLp)) := by
    have : Continuous (fun x : EuclideanSpace ℝ (Fin N) => WithLp.toLp 2 (A *ᵥ x.ofLp)) := by fun_prop
    exact this.measurable
  have hset : {x : EuclideanSpace ℝ (Fin N) | x i = x j} =
      (fun x : EuclideanSpace ℝ (Fin N) => WithLp.toLp 2 (A *ᵥ x.ofLp)) ⁻¹' ((fun y => y 0) ⁻¹' {0}) := by
    ext x
    simp only [Set.mem_setOf_eq, Set.mem_preimage, Set.mem_singleton_iff, hA]
    exact sub_eq_zero.symm
  have hm0 : Measurable (fun y : EuclideanSpace ℝ (Fin 1) => y 0) := by fun_prop
  rw [hset, ← Measure.map_apply hmeas (hm0 (measurableSet_singleton 0)), hmap]
  have hmp := measurePreserving_eval_multivariateGaussian (μ := WithLp.toLp 2 (A *ᵥ mu)) hpd.posSemidef (i := (0 : Fin 1))
  rw [← Measure.map_apply hm0 (measurableSet_singleton 0), hmp.map_eq]
  have hv : (A * K * Aᵀ) 0 0 ≠ 0 := (hpd.diag_pos).ne'
  haveI := nullSingletonClass_gaussianReal (μ := (WithLp.toLp 2 (A *ᵥ mu)).ofLp 0)
    (v := ((A * K * Aᵀ) 0 0).toNNReal) (by
      rw [Ne, Real.toNNReal_eq_zero, not_le]
      exact hpd.diag_pos)
  exact measure_singleton 0

/-- These probabilities sum to 1. -/
theorem bestProbability_sum {N : Nat} (hN : 0 < N) {K : Matrix (Fin N) (Fin N) ℝ} (hK : K.PosDef) (mu : Fin N → ℝ) :
    ∑ i, bestProbability K mu i = 1 := by
  simp only [bestProbability]
  set P := multivariateGaussian (WithLp.toLp 2 mu) K with hP
  have hms : ∀ i, MeasurableSet {x : EuclideanSpace ℝ (Fin N) | ∀ j, x j ≤ x i} := by
    intro i
    rw [Set.setOf_forall]
    exact MeasurableSet.iInter fun j => measurableSet_le (by fun_prop) (by fun_prop)
  have hd : Pairwise (Function.onFun (AEDisjoint P)
      fun i => {x : EuclideanSpace ℝ (Fin N) | ∀ j, x j ≤ x i}) := by
    intro i j hij
    refine measure_mono_null ?_ (gaussian_ties_null hK mu hij)
    rintro x ⟨h1, h2⟩
    exact le_antisymm (h2 i) (h1 j)
  have hU : (⋃ i, {x : EuclideanSpace ℝ (Fin N) | ∀ j, x j ≤ x i}) = Set.univ := by
    ext x
    simp only [Set.mem_iUnion, Set.mem_setOf_eq, Set.mem_univ, iff_true]
    obtain ⟨i, _, hi⟩ := exists_max_image univ (fun j => x j) ⟨(⟨0, hN⟩ : Fin N), mem_univ _⟩
    exact ⟨i, fun j => hi j (mem_univ j)⟩
  have h1 : P (⋃ i, {x : EuclideanSpace ℝ (Fin N) | ∀ j, x j ≤ x i}) = 1 := by
    rw [hU]; exact measure_univ
  rw [measure_iUnion₀ hd fun i => (hms i).nullMeasurableSet, tsum_fintype] at h1
  have h2 := congrArg ENNReal.toReal h1
  rw [ENNReal.toReal_sum fun i _ => measure_ne_top _ _] at h2
  simpa [Measure.real] using h2

/-- The orthant probability of the differences `A x`, where `A x ≤ 0` says that `i` is the best. -/
theorem orthant_eq_bestProbability {N : Nat} {κ : Type} [Fintype κ] [DecidableEq κ] (A : Matrix κ (Fin N) ℝ)
    {K : Matrix (Fin N) (Fin N) ℝ} (hK : K.PosSemidef) (mu : Fin N → ℝ) (i : Fin N)
    (hA : ∀ x : Fin N → ℝ, (∀ j, (A *ᵥ x) j ≤ 0) ↔ ∀ j, x j ≤ x i) :
    (multivariateGaussian (WithLp.toLp 2 (A *ᵥ mu)) (A * K * Aᵀ)).real {y | ∀ j, y j ≤ 0} =
      bestProbability K mu i := by
  rw [bestProbability, ← map_multivariateGaussian A mu hK]
  have hmeas : Measurable (fun x : EuclideanSpace ℝ (Fin N) => WithLp.toLp 2 (A *ᵥ x.ofLp)) := by
    have : Continuous (fun x : EuclideanSpace ℝ (Fin N) => WithLp.toLp 2 (A *ᵥ x.ofLp)) := by fun_prop
    exact this.measurable
  have hset : MeasurableSet {y : EuclideanSpace ℝ κ | ∀ j, y j ≤ 0} := by
    rw [Set.setOf_forall]
    exact MeasurableSet.iInter fun j => measurableSet_le (by fun_prop) measurable_const
  rw [map_measureReal_apply hmeas hset]
  congr 1
  ext x
  exact hA x.ofLp

end Lop
