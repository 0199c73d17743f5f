import Verif.Spec.GPChain
import Verif.Proofs.UcbBayes
import Verif.Proofs.GPSeq

/-! # Lemmas: predicting measurements one after another -/

namespace Lop

open Spec Matrix

variable {d : Nat}

/-- Covariance matrix of the first `T` measurements. -/
def dataCov (g : Pt d → Pt d → ℝ) (z : Nat → Pt d) (s : Nat → ℝ) (T : Nat) : Matrix (Fin T) (Fin T) ℝ :=
  (Matrix.of fun a b : Fin T => g (z a) (z b)) + diagonal fun j : Fin T => s j

/-- The prediction of the next measurement. -/
theorem next_prediction {k : KExpr ℝ (Pt d)} (hok : AllLeaves (LeafOK (d = 1)) k) (hq : AllLeaves NoNoise k) {g : Pt d → Pt d → ℝ}
    (hg : ∀ {n m : Nat} (X : Fin n → Pt d) (Y : Fin m → Pt d) c, k.cov X Y = .ok c → ∀ i j, c i j = g (X i) (Y j))
    (hpos : ∀ x, 0 ≤ g x x) (z : Nat → Pt d) {s : Nat → ℝ} (hs : ∀ t, 0 < s t) (y : Nat → ℝ) (T : Nat) :
    ∃ p : GPPred 1, gpRegress (kcov k) (fun _ => 0) (dataOf (fun _ => 0) z s y T) (fun _ => z T) = .ok p ∧
      IsUnit (dataCov g z s T).det ∧ 0 ≤ p.sigma 0 ∧ p.sigma 0 ≤ g (z T) (z T) ∧
      p.mu 0 = ((dataCov g z s T)⁻¹ *ᵥ fun t : Fin T => g (z T) (z t)) ⬝ᵥ (fun t => y t) ∧
      p.sigma 0 = g (z T) (z T) - ((dataCov g z s T)⁻¹ *ᵥ fun t : Fin T => g (z T) (z t)) ⬝ᵥ fun t => g (z T) (z t) := by
  obtain ⟨pred, hp, -, -⟩ := data_prediction k hok hq (fun _ => 0) z hs T (fun _ : Fin 1 => z T) one_pos
  refine ⟨pred y, hp y, ?_⟩
  obtain ⟨c, hc⟩ := cov_returns k (fun _ : Fin 1 => z T) (fun _ : Fin 1 => z T) one_pos
  rcases Nat.eq_zero_or_pos T with h0 | hT
  · subst h0
    have h1 := hp y
    simp only [dataOf, List.range_zero, List.foldl_nil, gpRegress, kcov, hc, Except.ok.injEq] at h1
    rw [← h1]
    have hc0 : c 0 0 = g (z 0) (z 0) := hg _ _ c hc 0 0
    simp only [hc0, max_eq_right (hpos (z 0)), dotProduct, Finset.univ_eq_empty, Finset.sum_empty, sub_zero, and_true, le_refl, hpos]
    rw [Matrix.det_isEmpty]
    exact isUnit_one
  · have hst : dataOf (fun _ => 0) z s y T = some ((List.range T).map fun t => (z t, y t - 0, s t)) := by
      unfold dataOf
      rw [gpAdd_fold _ _ hT]
      simp [gpAdd]
    have h1 := hp y
    rw [hst] at h1
    have l1 := gp_linear (y := fun t => y t - 0) (s := s) hg h1 rfl
    have hs' : ∀ r ∈ (List.range T).map fun t => (z t, y t - 0, s t), 0 ≤ r.2.2 := by
      intro r hr
      obtain ⟨t, -, rfl⟩ := List.mem_map.1 hr
      exact (hs t).le
    obtain ⟨prior, hpr, -, -, a1⟩ := Props.C43_posterior k hok (quiet_of_noNoise k hq) (fun _ => 0) _ hs' (fun _ : Fin 1 => z T) one_pos h1
    refine ⟨l1.1.det_pos.ne'.isUnit, (a1 0).2.1, (a1 0).2.2.trans (le_of_eq (hg _ _ prior hpr 0 0)), ?_, ?_⟩
    · rw [l1.2.1 0]
      simp only [sub_zero, add_zero]
      rfl
    · rw [(a1 0).1, l1.2.2]
      rfl

/-- Adding a row and a column. -/
theorem dataCov_succ {g : Pt d → Pt d → ℝ} (hsym : ∀ x y, g x y = g y x) (z : Nat → Pt d) (s : Nat → ℝ) (T : Nat) :
    (dataCov g z s (T + 1)).submatrix finSumFinEquiv finSumFinEquiv =
      fromBlocks (dataCov g z s T) (Matrix.of fun (a : Fin T) (_ : Fin 1) => g (z T) (z a))
        (Matrix.of fun (a : Fin T) (_ : Fin 1) => g (z T) (z a))ᵀ (Matrix.of fun _ _ : Fin 1 => g (z T) (z T) + s T) := by
  ext i j
  rcases i with i | i <;> rcases j with j | j
  · by_cases h : i = j
    · subst h
      simp [dataCov]
    · have h' : Fin.castAdd 1 i ≠ Fin.castAdd 1 j := fun e => h (Fin.castAdd_injective _ _ e)
      simp [dataCov, diagonal_apply_ne _ h, diagonal_apply_ne _ h']
  · have h' : Fin.castAdd 1 i ≠ Fin.natAdd T j := fun e => by
      have := congrArg Fin.val e
      simp at this
      omega
    have hj : j = 0 := Subsingleton.elim _ _
    subst hj
    simp [dataCov, diagonal_apply_ne _ h', hsym (z i)]
  · have h' : Fin.natAdd T i ≠ Fin.castAdd 1 j := fun e => by
      have := congrArg Fin.val e
      simp at this
      omega
    have hi : i = 0 := Subsingleton.elim _ _
    subst hi
    simp [dataCov, diagonal_apply_ne _ h']
  · have hi : i = 0 := Subsingleton.elim _ _
    have hj : j = 0 := Subsingleton.elim _ _
    subst hi hj
    simp [dataCov]

theorem dataCov_transpose {g : Pt d → Pt d → ℝ} (hsym : ∀ x y, g x y = g y x) (z : Nat → Pt d) (s : Nat → ℝ) (T : Nat) :
    (dataCov g z s T)ᵀ = dataCov g z s T := by
  ext i j
  simp only [dataCov, transpose_apply, Matrix.add_apply, of_apply, hsym (z j)]
  congr 1
  by_cases h : i = j
  · rw [h]
  · rw [diagonal_apply_ne _ h, diagonal_apply_ne _ (Ne.symm h)]

/-- Determinant and quadratic form of the measurements so far and the next one. -/
theorem chain_step {g : Pt d → Pt d → ℝ} (hsym : ∀ x y, g x y = g y x) (z : Nat → Pt d) (s y : Nat → ℝ) (T : Nat)
    (hD : IsUnit (dataCov g z s T).det) {m v : ℝ}
    (hm : m = ((dataCov g z s T)⁻¹ *ᵥ fun t : Fin T => g (z T) (z t)) ⬝ᵥ (fun t => y t))
    (hv : v = g (z T) (z T) - ((dataCov g z s T)⁻¹ *ᵥ fun t : Fin T => g (z T) (z t)) ⬝ᵥ fun t => g (z T) (z t)) (hne : v + s T ≠ 0) :
    (dataCov g z s (T + 1)).det = (dataCov g z s T).det * (v + s T) ∧
      ((fun t : Fin (T + 1) => y t) ⬝ᵥ (dataCov g z s (T + 1))⁻¹ *ᵥ fun t => y t) =
        ((fun t : Fin T => y t) ⬝ᵥ (dataCov g z s T)⁻¹ *ᵥ fun t => y t) + (y T - m) ^ 2 / (v + s T) := by
  have hb := dataCov_succ hsym z s T
  have hDt : (dataCov g z s T)⁻¹ᵀ = (dataCov g z s T)⁻¹ := by rw [transpose_nonsing_inv, dataCov_transpose hsym]
  set D := dataCov g z s T with hDd
  set Q : Matrix (Fin T) (Fin 1) ℝ := Matrix.of fun a _ => g (z T) (z a) with hQ
  set R : Matrix (Fin 1) (Fin 1) ℝ := Matrix.of fun _ _ => g (z T) (z T) + s T with hR
  have hS : R - Qᵀ * (D⁻¹ * Q) = Matrix.of fun _ _ => v + s T := by
    ext i j
    have : (Qᵀ * (D⁻¹ * Q)) i j = (D⁻¹ *ᵥ fun t : Fin T => g (z T) (z t)) ⬝ᵥ fun t => g (z T) (z t) := by
      rw [dotProduct_comm]
      rfl
    rw [Matrix.sub_apply, this, hv]
    simp [hR]
    ring
  have hSd : (R - Qᵀ * (D⁻¹ * Q)).det = v + s T := by rw [hS]; simp
  refine ⟨?_, ?_⟩
  · rw [← det_submatrix_equiv_self finSumFinEquiv, hb]
    letI := invertibleOfIsUnitDet D hD
    rw [det_fromBlocks₁₁, invOf_eq_nonsing_inv, Matrix.mul_assoc, hSd]
  · have hu : ((fun t : Fin (T + 1) => y t) ⬝ᵥ (dataCov g z s (T + 1))⁻¹ *ᵥ fun t => y t) =
        (fromCols (Matrix.of fun (_ : Fin 1) (t : Fin T) => y t) (Matrix.of fun _ _ : Fin 1 => y T) * ((fromBlocks D Q Qᵀ R)⁻¹ *
          fromRows (Matrix.of fun (t : Fin T) (_ : Fin 1) => y t) (Matrix.of fun _ _ : Fin 1 => y T))) 0 0 := by
      rw [← hb, inv_submatrix_equiv]
      simp only [Matrix.mul_apply, dotProduct, mulVec, submatrix_apply]
      rw [← finSumFinEquiv.sum_comp]
      refine Finset.sum_congr rfl fun i _ => ?_
      congr 1
      · rcases i with i | i
        · simp
        · have : i = 0 := Subsingleton.elim _ _
          subst this
          simp
      · rw [← finSumFinEquiv.sum_comp]
        refine Finset.sum_congr rfl fun j _ => ?_
        congr 1
        rcases j with j | j
        · simp
        · have : j = 0 := Subsingleton.elim _ _
          subst this
          simp
    rw [hu, block_update hD (by rw [hSd]; exact hne.isUnit), Matrix.add_apply]
    congr 1
    have e1 : (Matrix.of fun _ _ : Fin 1 => y T) - (Matrix.of fun (_ : Fin 1) (t : Fin T) => y t) * (D⁻¹ * Q) = Matrix.of fun _ _ => y T - m := by
      ext i j
      have : ((Matrix.of fun (_ : Fin 1) (t : Fin T) => y t) * (D⁻¹ * Q)) i j = m := by
        rw [hm, dotProduct_comm]
        rfl
      rw [Matrix.sub_apply, this]
      rfl
    have e2 : (Matrix.of fun _ _ : Fin 1 => y T) - Qᵀ * (D⁻¹ * Matrix.of fun (t : Fin T) (_ : Fin 1) => y t) = Matrix.of fun _ _ => y T - m := by
      ext i j
      have : (Qᵀ * (D⁻¹ * Matrix.of fun (t : Fin T) (_ : Fin 1) => y t)) i j = m := by
        rw [hm]
        have h2 : (D⁻¹ *ᵥ fun t : Fin T => g (z T) (z t)) = (fun t : Fin T => g (z T) (z t)) ᵥ* D⁻¹ := by
          rw [← vecMul_transpose, hDt]
        rw [h2, ← dotProduct_mulVec]
        rfl
      rw [Matrix.sub_apply, this]
      rfl
    have e3 : (Matrix.of fun _ _ : Fin 1 => v + s T)⁻¹ = Matrix.of fun _ _ => (v + s T)⁻¹ := by
      refine inv_eq_right_inv ?_
      ext i j
      have hi : i = j := Subsingleton.elim _ _
      subst hi
      simp [Matrix.mul_apply, hne]
    rw [e1, e2, hS, e3]
    simp [Matrix.mul_apply]
    field_simp

end Lop
