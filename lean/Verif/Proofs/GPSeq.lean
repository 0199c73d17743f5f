import Verif.Proofs.GP
import Mathlib.LinearAlgebra.Matrix.SchurComplement
import Mathlib.Logic.Equiv.Fin.Basic
import Mathlib.Data.Matrix.ColumnRowPartitioned

/-! # Helper lemmas: GP regression, order of the data and step-by-step learning -/

namespace Lop

open Lop.Spec Matrix

variable {n t d : Nat}

theorem perm_equiv {α : Type*} {l₁ l₂ : List α} (h : l₁.Perm l₂) :
    ∃ σ : Fin l₁.length ≃ Fin l₂.length, ∀ i, l₂.get (σ i) = l₁.get i := by
  induction h with
  | nil => exact ⟨Equiv.refl _, fun i => i.elim0⟩
  | @cons x l₁ l₂ _ ih =>
    obtain ⟨σ, hσ⟩ := ih
    refine ⟨(finSuccEquiv _).trans ((Equiv.optionCongr σ).trans (finSuccEquiv _).symm), fun i => ?_⟩
    refine Fin.cases ?_ (fun i => ?_) i
    · simp
    · simpa using hσ i
  | swap x y l =>
    refine ⟨Equiv.swap (0 : Fin (l.length + 2)) 1, fun i => ?_⟩
    refine Fin.cases ?_ (fun i => Fin.cases ?_ (fun i => ?_) i) i
    · rw [Equiv.swap_apply_left]
      rfl
    · rw [show Fin.succ (0 : Fin (l.length + 1)) = 1 from rfl, Equiv.swap_apply_right]
      rfl
    · rw [Equiv.swap_apply_of_ne_of_ne (by simp) (by simp [Fin.ext_iff])]
      rfl
  | trans _ _ ih₁ ih₂ =>
    obtain ⟨σ, hσ⟩ := ih₁
    obtain ⟨τ, hτ⟩ := ih₂
    exact ⟨σ.trans τ, fun i => by rw [Equiv.trans_apply, hτ, hσ]⟩

open Classical in
theorem gpRegress_eq {cov : CovFn d} (mean : Pt d → ℝ) {rows : List (Pt d × ℝ × ℝ)} {X : Fin n → Pt d} {A B C}
    (hA : cov _ _ X X = .ok A) (hB : cov _ _ X (fun j : Fin rows.length => (rows.get j).1) = .ok B)
    (hC : cov _ _ (fun j : Fin rows.length => (rows.get j).1) (fun j : Fin rows.length => (rows.get j).1) = .ok C) :
    gpRegress cov mean (some rows) X =
      if (C + diagonal fun j => (rows.get j).2.2).PosDef then
        .ok ⟨fun i => (B *ᵥ ((C + diagonal fun j => (rows.get j).2.2)⁻¹ *ᵥ fun j => (rows.get j).2.1)) i + mean (X i),
          fun i => max 0 ((A - B * ((C + diagonal fun j => (rows.get j).2.2)⁻¹ * Bᵀ)) i i),
          A - B * ((C + diagonal fun j => (rows.get j).2.2)⁻¹ * Bᵀ)⟩
      else .error .valueError := by
  unfold gpRegress
  simp only [hA, hB, hC]

/-- Conditioning on a second block of data after a first one. -/
theorem block_update {ι κ μ : Type*} [Fintype ι] [Fintype κ] [DecidableEq ι] [DecidableEq κ]
    {D : Matrix ι ι ℝ} {Q : Matrix ι κ ℝ} {R : Matrix κ κ ℝ} (hD : IsUnit D.det)
    (hS : IsUnit (R - Qᵀ * (D⁻¹ * Q)).det) (B : Matrix μ ι ℝ) (Bn : Matrix μ κ ℝ) {o : Type*}
    (V : Matrix ι o ℝ) (Vn : Matrix κ o ℝ) :
    fromCols B Bn * ((fromBlocks D Q Qᵀ R)⁻¹ * fromRows V Vn) =
      B * (D⁻¹ * V) + (Bn - B * (D⁻¹ * Q)) * ((R - Qᵀ * (D⁻¹ * Q))⁻¹ * (Vn - Qᵀ * (D⁻¹ * V))) := by
  set S := R - Qᵀ * (D⁻¹ * Q) with hSd
  set zn := S⁻¹ * (Vn - Qᵀ * (D⁻¹ * V)) with hzn
  set z1 := D⁻¹ * (V - Q * zn) with hz1
  have hM : IsUnit (fromBlocks D Q Qᵀ R).det := by
    have : Invertible D := D.invertibleOfIsUnitDet hD
    rw [det_fromBlocks₁₁, invOf_eq_nonsing_inv, Matrix.mul_assoc, ← hSd]
    exact hD.mul hS
  have hsolve : fromBlocks D Q Qᵀ R * fromRows z1 zn = fromRows V Vn := by
    rw [fromBlocks_mul_fromRows]
    congr 1
    · rw [hz1, ← Matrix.mul_assoc, mul_nonsing_inv _ hD, Matrix.one_mul, sub_add_cancel]
    · have e : S * zn = Vn - Qᵀ * (D⁻¹ * V) := by
        rw [hzn, ← Matrix.mul_assoc, mul_nonsing_inv _ hS, Matrix.one_mul]
      rw [hSd, Matrix.sub_mul] at e
      have e2 : R * zn = Vn - Qᵀ * (D⁻¹ * V) + Qᵀ * (D⁻¹ * Q) * zn := by rw [← e]; abel
      rw [e2, hz1]
      simp only [Matrix.mul_sub, Matrix.mul_assoc]
      abel
  rw [← hsolve, ← Matrix.mul_assoc _ (fromBlocks D Q Qᵀ R), nonsing_inv_mul _ hM, Matrix.one_mul, fromCols_mul_fromRows,
    hz1, Matrix.sub_mul]
  simp only [Matrix.mul_sub, Matrix.mul_assoc]
  abel

open Classical in
/-- `gpRegress` with the data given by functions. -/
noncomputable def gpFn (cov : CovFn d) (mean : Pt d → ℝ) (m : Nat) (Y : Fin m → Pt d) (y s : Fin m → ℝ)
    (X : Fin n → Pt d) : Except PyErr (GPPred n) :=
  match cov _ _ X X with
  | .error e => .error e
  | .ok covXX => match cov _ _ X Y with
    | .error e => .error e
    | .ok covXY => match cov _ _ Y Y with
      | .error e => .error e
      | .ok cYY =>
        let covYY := cYY + Matrix.diagonal s
        if covYY.PosDef then
          let post := covXX - covXY * (covYY⁻¹ * covXY.transpose)
          .ok ⟨fun i => covXY.mulVec (covYY⁻¹.mulVec y) i + mean (X i), fun i => max 0 (post i i), post⟩
        else .error .valueError

theorem gpRegress_fn (cov : CovFn d) (mean : Pt d → ℝ) (rows : List (Pt d × ℝ × ℝ)) (X : Fin n → Pt d) :
    gpRegress cov mean (some rows) X = gpFn cov mean rows.length (fun j => (rows.get j).1) (fun j => (rows.get j).2.1)
      (fun j => (rows.get j).2.2) X := by
  unfold gpRegress gpFn
  simp only
  cases cov n n X X with
  | error e => rfl
  | ok A =>
    cases cov n rows.length X fun j => (rows.get j).1 with
    | error e => rfl
    | ok B =>
      cases cov rows.length rows.length (fun j => (rows.get j).1) fun j => (rows.get j).1 with
      | error e => rfl
      | ok C => rfl

theorem gpFn_cast (cov : CovFn d) (mean : Pt d → ℝ) {m m' : Nat} (h : m' = m) (Y : Fin m → Pt d) (y s : Fin m → ℝ)
    (X : Fin n → Pt d) :
    gpFn cov mean m Y y s X =
      gpFn cov mean m' (fun j => Y (Fin.cast h j)) (fun j => y (Fin.cast h j)) (fun j => s (Fin.cast h j)) X := by
  subst h
  rfl

theorem gpRegress_map {β : Type*} (cov : CovFn d) (mean : Pt d → ℝ) (l : List β) (x : β → Pt d) (f s : β → ℝ)
    (X : Fin n → Pt d) :
    gpRegress cov mean (some (l.map fun b => (x b, f b, s b))) X =
      gpFn cov mean l.length (fun j => x (l.get j)) (fun j => f (l.get j)) (fun j => s (l.get j)) X := by
  rw [gpRegress_fn, gpFn_cast cov mean (m' := l.length) (by simp)]
  simp

theorem gpFn_inv {cov : CovFn d} {mean : Pt d → ℝ} {m : Nat} {Y : Fin m → Pt d} {y s : Fin m → ℝ}
    {X : Fin n → Pt d} {p : GPPred n} (h : gpFn cov mean m Y y s X = .ok p) :
    ∃ A B C, cov _ _ X X = .ok A ∧ cov _ _ X Y = .ok B ∧ cov _ _ Y Y = .ok C ∧
      (C + diagonal s).PosDef ∧ p.cov = A - B * ((C + diagonal s)⁻¹ * Bᵀ) ∧
      (∀ i, p.mu i = (B *ᵥ ((C + diagonal s)⁻¹ *ᵥ y)) i + mean (X i)) ∧ ∀ i, p.sigma i = max 0 (p.cov i i) := by
  unfold gpFn at h
  cases hA : cov _ _ X X with
  | error e => simp [hA] at h
  | ok A =>
    cases hB : cov _ _ X Y with
    | error e => simp [hA, hB] at h
    | ok B =>
      cases hC : cov _ _ Y Y with
      | error e => simp [hA, hB, hC] at h
      | ok C =>
        simp only [hA, hB, hC] at h
        split at h
        · rename_i hpd
          have h := Except.ok.inj h
          exact ⟨A, B, C, rfl, rfl, rfl, hpd, by rw [← h], fun i => by rw [← h], fun i => by rw [← h]⟩
        · simp at h

/-- Merging measurements: `E` says which merged measurement each one belongs to, `F` how it is weighted. -/
theorem merge_reduction {ι κ μ : Type*} [Fintype ι] [Fintype κ] [DecidableEq ι] [DecidableEq κ]
    {C : Matrix κ κ ℝ} {s' : ι → ℝ} {s : κ → ℝ} {E F : Matrix ι κ ℝ} (B : Matrix μ κ ℝ)
    (hEF : Eᵀ * F = 1) (hsF : diagonal s' * F = E * diagonal s) (hD' : IsUnit (E * C * Eᵀ + diagonal s').det)
    (hD : IsUnit (C + diagonal s).det) :
    (E * C * Eᵀ + diagonal s')⁻¹ * (B * Eᵀ)ᵀ = F * ((C + diagonal s)⁻¹ * Bᵀ) := by
  have h1 : (E * C * Eᵀ + diagonal s') * F = E * (C + diagonal s) := by
    rw [Matrix.add_mul, Matrix.mul_assoc, hEF, Matrix.mul_one, hsF, Matrix.mul_add]
  have h2 : (E * C * Eᵀ + diagonal s') * (F * ((C + diagonal s)⁻¹ * Bᵀ)) = (B * Eᵀ)ᵀ := by
    rw [← Matrix.mul_assoc, h1, Matrix.mul_assoc, ← Matrix.mul_assoc (C + diagonal s), mul_nonsing_inv _ hD,
      Matrix.one_mul, transpose_mul, transpose_transpose]
  rw [← h2, ← Matrix.mul_assoc _ (E * C * Eᵀ + diagonal s'), nonsing_inv_mul _ hD', Matrix.one_mul]

theorem post_submatrix {ι κ α β : Type*} [Fintype κ] (A : Matrix ι ι ℝ) (B : Matrix ι κ ℝ) (D : Matrix κ κ ℝ)
    (f : α → ι) (h : β → ι) :
    (A - B * (D * Bᵀ)).submatrix f h = A.submatrix f h - B.submatrix f id * (D * (B.submatrix h id)ᵀ) := by
  ext i j
  simp [Matrix.mul_apply, Matrix.sub_apply]

/-- The matrix which sends measurement `i` to the merged measurement `π i` with weight `w i`. -/
def mergeMat {ι κ : Type*} [DecidableEq κ] (π : ι → κ) (w : ι → ℝ) : Matrix ι κ ℝ :=
  Matrix.of fun i j => if π i = j then w i else 0

theorem mergeMat_mul {ι κ μ : Type*} [Fintype κ] [DecidableEq κ] (π : ι → κ) (C : Matrix κ μ ℝ) :
    mergeMat π (fun _ => 1) * C = C.submatrix π id := by
  ext i j
  simp [mergeMat, Matrix.mul_apply]

theorem mul_mergeMat {ι κ μ : Type*} [Fintype κ] [DecidableEq κ] (π : ι → κ) (C : Matrix μ κ ℝ) :
    C * (mergeMat π fun _ => 1)ᵀ = C.submatrix id π := by
  ext i j
  simp [mergeMat, Matrix.mul_apply]

theorem posDef_inv_transpose {ν : Type*} [Fintype ν] [DecidableEq ν] {M : Matrix ν ν ℝ} (hM : M.PosDef) :
    (M⁻¹)ᵀ = M⁻¹ := by
  have := hM.isHermitian.eq
  rw [conjTranspose_eq_transpose_of_trivial] at this
  rw [transpose_nonsing_inv, this]

theorem gp_merge {ι κ μ : Type*} [Fintype ι] [Fintype κ] [DecidableEq ι] [DecidableEq κ]
    {C : Matrix κ κ ℝ} {C' : Matrix ι ι ℝ} {s' w y' : ι → ℝ} {s y : κ → ℝ} {π : ι → κ} {B : Matrix μ κ ℝ} {B' : Matrix μ ι ℝ}
    (hC : C' = C.submatrix π π) (hB : B' = B.submatrix id π)
    (hw : ∀ j, ∑ i, (if π i = j then w i else 0) = 1) (hs : ∀ i, s' i * w i = s (π i))
    (hy : ∀ j, y j = ∑ i, if π i = j then w i * y' i else 0)
    (hD' : (C' + diagonal s').PosDef) (hD : (C + diagonal s).PosDef) :
    B' * ((C' + diagonal s')⁻¹ * B'ᵀ) = B * ((C + diagonal s)⁻¹ * Bᵀ) ∧
      B' *ᵥ ((C' + diagonal s')⁻¹ *ᵥ y') = B *ᵥ ((C + diagonal s)⁻¹ *ᵥ y) := by
  set E := mergeMat π fun _ => 1 with hE
  set F := mergeMat π w with hF
  have hC2 : C' = E * C * Eᵀ := by
    rw [hE, mergeMat_mul, mul_mergeMat, submatrix_submatrix, hC]
    rfl
  have hB2 : B' = B * Eᵀ := by rw [hE, mul_mergeMat, hB]
  have hEF : Eᵀ * F = 1 := by
    ext j j'
    rw [Matrix.mul_apply]
    simp only [hE, hF, mergeMat, transpose_apply, Matrix.of_apply, ite_mul, one_mul, zero_mul]
    by_cases h : j = j'
    · subst h
      rw [one_apply_eq, ← hw j]
      refine Finset.sum_congr rfl fun i _ => ?_
      split <;> rfl
    · rw [one_apply_ne h]
      refine Finset.sum_eq_zero fun i _ => ?_
      by_cases h1 : π i = j
      · rw [if_pos h1, if_neg fun h2 => h (h1.symm.trans h2)]
      · rw [if_neg h1]
  have hsF : diagonal s' * F = E * diagonal s := by
    ext i j
    rw [diagonal_mul, mul_diagonal]
    simp only [hE, hF, mergeMat, Matrix.of_apply]
    by_cases h : π i = j
    · rw [if_pos h, if_pos h, hs, h, one_mul]
    · rw [if_neg h, if_neg h, mul_zero, zero_mul]
  have hu' : IsUnit (E * C * Eᵀ + diagonal s').det := by
    rw [← hC2]
    exact (isUnit_iff_isUnit_det _).1 hD'.isUnit
  have key := merge_reduction B hEF hsF hu' ((isUnit_iff_isUnit_det _).1 hD.isUnit)
  rw [← hC2, ← hB2] at key
  have hEt : Fᵀ * E = 1 := by
    rw [← transpose_transpose E, ← transpose_mul, hEF, transpose_one]
  constructor
  · rw [key, hB2, Matrix.mul_assoc, ← Matrix.mul_assoc Eᵀ, hEF, Matrix.one_mul]
  · have h1 := congrArg transpose key
    rw [transpose_mul, transpose_transpose, posDef_inv_transpose hD', transpose_mul, transpose_mul, transpose_transpose, posDef_inv_transpose hD] at h1
    rw [mulVec_mulVec, h1, ← mulVec_mulVec, ← mulVec_mulVec]
    congr 2
    funext j
    rw [hy]
    simp only [mulVec, dotProduct, transpose_apply, hF, mergeMat, Matrix.of_apply, ite_mul, zero_mul]

end Lop
