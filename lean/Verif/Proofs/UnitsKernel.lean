import Verif.Proofs.Units
import Verif.Proofs.GPSeq

/-! # Helper lemmas: kernels in other units, weights of the linear model in other coordinates -/

namespace Lop

open Lop.Spec Matrix

variable {n m d : Nat}

theorem sqDist_coords (c s : ℝ) (u v : Pt d) : sqDist (pointUnits c s u) (pointUnits c s v) = c ^ 2 * sqDist u v := by
  simp only [sqDist, Finset.mul_sum, pointUnits]
  exact Finset.sum_congr rfl fun i _ => by ring

theorem l1Dist_coords {c : ℝ} (hc : 0 < c) (s : ℝ) (u v : Pt d) :
    l1Dist (pointUnits c s u) (pointUnits c s v) = c * l1Dist u v := by
  simp only [l1Dist, Finset.mul_sum, pointUnits]
  exact Finset.sum_congr rfl fun i _ => by rw [add_sub_add_right_eq_sub, ← mul_sub, abs_mul, abs_of_pos hc]

theorem rbfEval_units (c s l : ℝ) (u v : Pt d) : rbfEval (c * s) l u v = c ^ 2 * rbfEval s l u v := by
  simp only [rbfEval]
  ring

theorem rbfEval_coords {c : ℝ} (hc : 0 < c) (r s l : ℝ) (u v : Pt d) :
    rbfEval s (c * l) (pointUnits c r u) (pointUnits c r v) = rbfEval s l u v := by
  simp only [rbfEval, sqDist_coords]
  rw [show -(c ^ 2 * sqDist u v) / (2 * (c * l) * (c * l)) = (c ^ 2 * -sqDist u v) / (c ^ 2 * (2 * l * l)) by ring_nf,
    mul_div_mul_left _ _ (pow_ne_zero 2 hc.ne')]

theorem noiseTerm_units (c noise : ℝ) (X : Fin n → Pt d) (Y : Fin m → Pt d) (i : Fin n) (j : Fin m) :
    noiseTerm (c ^ 2 * noise) X Y i j = c ^ 2 * noiseTerm noise X Y i j := by
  simp only [noiseTerm, of_apply, mul_ite, mul_zero]

theorem noiseTerm_coords {c : ℝ} (hc : 0 < c) (r noise : ℝ) (X : Fin n → Pt d) (Y : Fin m → Pt d) (i : Fin n) (j : Fin m) :
    noiseTerm noise (fun i => pointUnits c r (X i)) (fun j => pointUnits c r (Y j)) i j = noiseTerm noise X Y i j := by
  have : ∀ u v : Pt d, pointUnits c r u = pointUnits c r v ↔ u = v := fun u v => by
    simp only [funext_iff, pointUnits, add_left_inj, mul_right_inj' hc.ne']
  simp only [noiseTerm, of_apply, this]

theorem rbfCov_units (c s l noise : ℝ) (X : Fin n → Pt d) (Y : Fin m → Pt d) :
    rbfCov (c * s) l (c ^ 2 * noise) X Y = (rbfCov s l noise X Y).map (c ^ 2 • ·) := by
  simp only [rbfCov]
  split_ifs
  · rfl
  · simp only [Except.map, Except.ok.injEq]
    ext i j
    simp only [of_apply, Matrix.smul_apply, smul_eq_mul, rbfEval_units, noiseTerm_units]
    ring

theorem rbfCov_coords {c : ℝ} (hc : 0 < c) (r s l noise : ℝ) (X : Fin n → Pt d) (Y : Fin m → Pt d) :
    rbfCov s (c * l) noise (fun i => pointUnits c r (X i)) (fun j => pointUnits c r (Y j)) = rbfCov s l noise X Y := by
  simp only [rbfCov, rbfEval_coords hc, noiseTerm_coords hc]

theorem zeroedCov_units {c : ℝ} (hc : c ≠ 0) (s l : ℝ) (z : Option (Pt d)) (noise : ℝ) (X : Fin n → Pt d) (Y : Fin m → Pt d) :
    zeroedCov (c * s) l z (c ^ 2 * noise) X Y = (zeroedCov s l z noise X Y).map (c ^ 2 • ·) := by
  simp only [zeroedCov, rbfCov_units]
  split_ifs
  · rfl
  · cases rbfCov s l noise X Y with
    | error e => rfl
    | ok A =>
      cases rbfCov s l noise X fun _ : Fin 1 => zeroPt z with
      | error e => rfl
      | ok B =>
        cases rbfCov s l noise (fun _ : Fin 1 => zeroPt z) Y with
        | error e => rfl
        | ok C =>
          simp only [Except.map, Except.ok.injEq]
          ext i j
          simp only [of_apply, Matrix.smul_apply, smul_eq_mul]
          rw [show c ^ 2 * B i 0 * (c ^ 2 * C 0 j) = c ^ 2 * (c ^ 2 * (B i 0 * C 0 j)) by ring,
            show c * s * (c * s) = c ^ 2 * (s * s) by ring, mul_div_mul_left _ _ (pow_ne_zero 2 hc), mul_sub, mul_div_assoc]

theorem zeroedCov_coords {c : ℝ} (hc : 0 < c) (r s l : ℝ) (z : Option (Pt d)) (noise : ℝ) (X : Fin n → Pt d)
    (Y : Fin m → Pt d) :
    zeroedCov s (c * l) (some (pointUnits c r (z.getD 0))) noise (fun i => pointUnits c r (X i))
      (fun j => pointUnits c r (Y j)) = zeroedCov s l z noise X Y := by
  have h : zeroPt (some (pointUnits c r (z.getD 0))) = pointUnits c r (zeroPt z) := rfl
  simp only [zeroedCov, h, rbfCov_coords hc]

theorem leafCov_units {c : ℝ} (hc : c ≠ 0) (k : KLeaf ℝ (Pt d)) (X : Fin n → Pt d) (Y : Fin m → Pt d) :
    (leafUnits c k).cov X Y = (k.cov X Y).map (c ^ 2 • ·) := by
  cases k with
  | rbf s l noise => exact rbfCov_units c s l noise X Y
  | zeroed s l z noise => exact zeroedCov_units hc s l z noise X Y
  | linear s b c0 =>
    simp only [leafUnits, KLeaf.cov, Except.map, Except.ok.injEq]
    ext i j
    simp only [of_apply, Matrix.smul_apply, smul_eq_mul]
    ring
  | periodic s l p =>
    simp only [leafUnits, KLeaf.cov, Except.map, Except.ok.injEq]
    ext i j
    simp only [of_apply, Matrix.smul_apply, smul_eq_mul]
    ring

theorem leafCov_coords {c : ℝ} (hc : 0 < c) (r : ℝ) (k : KLeaf ℝ (Pt d)) (X : Fin n → Pt d) (Y : Fin m → Pt d) :
    (leafCoords c r k).cov (fun i => pointUnits c r (X i)) (fun j => pointUnits c r (Y j)) = k.cov X Y := by
  cases k with
  | rbf s l noise => exact rbfCov_coords hc r s l noise X Y
  | zeroed s l z noise => exact zeroedCov_coords hc r s l z noise X Y
  | linear s b c0 =>
    simp only [leafCoords, KLeaf.cov, Except.ok.injEq]
    ext i j
    simp only [of_apply, pointUnits, add_right_inj, Finset.mul_sum]
    refine Finset.sum_congr rfl fun k _ => ?_
    field_simp
    ring
  | periodic s l p =>
    simp only [leafCoords, KLeaf.cov, perExp, l1Dist_coords hc]
    have : ∀ u v : Pt d, Real.pi * (c * l1Dist u v) / (c * p) = Real.pi * l1Dist u v / p := fun u v => by
      rw [mul_left_comm, mul_div_mul_left _ _ hc.ne']
    simp only [this]

theorem cov_units {c : ℝ} (hc : c ≠ 0) (k : KExpr ℝ (Pt d)) (X : Fin n → Pt d) (Y : Fin m → Pt d) :
    (kernelUnits c k).cov X Y = (k.cov X Y).map (c ^ 2 • ·) := by
  induction k with
  | leaf k => exact leafCov_units hc k X Y
  | dual op a b iha ihb =>
    cases op with
    | add =>
      simp only [kernelUnits, KExpr.cov, iha, ihb]
      cases a.cov X Y with
      | error e => rfl
      | ok A =>
        cases b.cov X Y with
        | error e => rfl
        | ok B =>
          simp only [Except.map, Except.ok.injEq]
          ext i j
          simp only [of_apply, Matrix.smul_apply, smul_eq_mul, mul_add]
    | mul =>
      simp only [kernelUnits, KExpr.cov, iha]
      cases a.cov X Y with
      | error e => rfl
      | ok A =>
        cases b.cov X Y with
        | error e => rfl
        | ok B =>
          simp only [Except.map, Except.ok.injEq]
          ext i j
          simp only [of_apply, Matrix.smul_apply, smul_eq_mul, mul_assoc]

theorem cov_coords {c : ℝ} (hc : 0 < c) (r : ℝ) (k : KExpr ℝ (Pt d)) (X : Fin n → Pt d) (Y : Fin m → Pt d) :
    (kernelCoords c r k).cov (fun i => pointUnits c r (X i)) (fun j => pointUnits c r (Y j)) = k.cov X Y := by
  induction k with
  | leaf k => exact leafCov_coords hc r k X Y
  | dual op a b iha ihb => simp only [kernelCoords, KExpr.cov, iha, ihb]

theorem gpFn_units {c : ℝ} (hc : 0 < c) (k : KExpr ℝ (Pt d)) (mean : Pt d → ℝ) (Y : Fin m → Pt d) (y s : Fin m → ℝ)
    (X : Fin n → Pt d) :
    gpFn (kcov (kernelUnits c k)) (fun x => c * mean x) m Y (fun j => c * y j) (fun j => c ^ 2 * s j) X =
      (gpFn (kcov k) mean m Y y s X).map (predTimes c) := by
  have hc2 : c ^ 2 ≠ 0 := pow_ne_zero 2 hc.ne'
  simp only [gpFn, kcov, cov_units hc.ne']
  cases k.cov X X with
  | error e => rfl
  | ok A =>
    cases k.cov X Y with
    | error e => rfl
    | ok B =>
      cases k.cov Y Y with
      | error e => rfl
      | ok C =>
        simp only [Except.map]
        have e1 : c ^ 2 • C + diagonal (fun j => c ^ 2 * s j) = c ^ 2 • (C + diagonal s) := by
          rw [smul_add, ← diagonal_smul]
          rfl
        rw [e1]
        by_cases h : (C + diagonal s).PosDef
        · rw [if_pos h, if_pos ((posDef_times (by positivity) _).2 h)]
          have e2 : c ^ 2 • A - c ^ 2 • B * ((c ^ 2 • (C + diagonal s))⁻¹ * (c ^ 2 • B)ᵀ) =
              c ^ 2 • (A - B * ((C + diagonal s)⁻¹ * Bᵀ)) := by
            rw [inv_times _ hc2, transpose_smul, Matrix.smul_mul _ (C + diagonal s)⁻¹,
              Matrix.mul_smul (C + diagonal s)⁻¹, smul_smul, inv_mul_cancel₀ hc2, one_smul, smul_sub, Matrix.smul_mul]
          simp only [e2, predTimes, Except.ok.injEq, GPPred.mk.injEq, and_true]
          refine ⟨?_, ?_⟩
          · funext i
            have e3 : (c ^ 2 • B) *ᵥ ((c ^ 2 • (C + diagonal s))⁻¹ *ᵥ fun j => c * y j) =
                c • (B *ᵥ ((C + diagonal s)⁻¹ *ᵥ y)) := by
              rw [show (fun j => c * y j) = c • y from rfl, inv_times _ hc2, smul_mulVec, smul_mulVec, mulVec_smul,
                mulVec_smul, mulVec_smul, smul_smul, smul_smul]
              rw [show c ^ 2 * (c ^ 2)⁻¹ * c = c by field_simp]
            rw [e3]
            simp only [Pi.smul_apply, smul_eq_mul, mul_add]
          · funext i
            simp only [Matrix.smul_apply, Pi.smul_apply, smul_eq_mul]
            rw [mul_max_of_nonneg _ _ (by positivity), mul_zero]
        · rw [if_neg h, if_neg fun h2 => h ((posDef_times (by positivity) _).1 h2)]

theorem gpFn_coords {c : ℝ} (hc : 0 < c) (r : ℝ) (k : KExpr ℝ (Pt d)) {mean mean' : Pt d → ℝ}
    (hm : ∀ x, mean' (pointUnits c r x) = mean x) (Y : Fin m → Pt d) (y s : Fin m → ℝ) (X : Fin n → Pt d) :
    gpFn (kcov (kernelCoords c r k)) mean' m (fun j => pointUnits c r (Y j)) y s (fun i => pointUnits c r (X i)) =
      gpFn (kcov k) mean m Y y s X := by
  simp only [gpFn, kcov, cov_coords hc, hm]

/-! ### The linear model -/

section linear

variable {P P' : ProbitSet} {y : TrainLabels n} {y' : TrainLabels m} {X : Matrix (Fin n) (Fin d) ℝ}
  {X' : Matrix (Fin m) (Fin d) ℝ} {A B : Matrix (Fin d) (Fin d) ℝ} (hAB : A * B = 1)
  (hd : ∀ w, linDerivatives P' y' X' (A *ᵥ w) =
    (linDerivatives P y X w).map (Option.map fun r => (Bᵀ * r.1 * B, r.2.1 ᵥ* B, r.2.2)))
  (hl : ∀ w, linLoss P' y' X' (A *ᵥ w) = linLoss P y X w)

include hAB hd hl

theorem linUpdate_coords (w : Fin d → ℝ)
    (h : A = Bᵀ ∨ ∀ r, linDerivatives P y X w = .ok (some r) → IsUnit r.1.det) :
    linUpdate P' y' X' npInv (A *ᵥ w) = (linUpdate P y X npInv w).map (Option.map (A *ᵥ ·)) := by
  have hBA : B * A = 1 := mul_eq_one_comm.1 hAB
  have hdB : IsUnit B.det := by
    rw [← Matrix.isUnit_iff_isUnit_det]
    exact ⟨⟨B, A, hBA, hAB⟩, rfl⟩
  simp only [linUpdate, hd]
  cases hr : linDerivatives P y X w with
  | error e => rfl
  | ok r =>
    cases r with
    | none => rfl
    | some r =>
      have hdir : descentDir (r.2.1 ᵥ* B) (-(Bᵀ * r.1 * B)) npInv = A *ᵥ descentDir r.2.1 (-r.1) npInv := by
        have e1 : (-(Bᵀ * r.1 * B)).det = B.det * (-r.1).det * B.det := by
          rw [← Matrix.neg_mul, ← Matrix.mul_neg, det_mul, det_mul, det_transpose]
        by_cases hu : IsUnit (-r.1).det
        · have hu2 : IsUnit (-(Bᵀ * r.1 * B)).det := by
            rw [e1]
            exact (hdB.mul hu).mul hdB
          have e2 : (-(Bᵀ * r.1 * B))⁻¹ = A * (-r.1)⁻¹ * Aᵀ := by
            refine inv_eq_right_inv ?_
            rw [← Matrix.neg_mul, ← Matrix.mul_neg]
            calc Bᵀ * -r.1 * B * (A * (-r.1)⁻¹ * Aᵀ) = Bᵀ * -r.1 * (B * A) * (-r.1)⁻¹ * Aᵀ := by simp only [Matrix.mul_assoc]
              _ = Bᵀ * (-r.1 * (-r.1)⁻¹) * Aᵀ := by rw [hBA, Matrix.mul_one, Matrix.mul_assoc Bᵀ]
              _ = 1 := by rw [mul_nonsing_inv _ hu, Matrix.mul_one, ← transpose_mul, hAB, transpose_one]
          simp only [descentDir, npInv, if_pos hu, if_pos hu2, e2]
          rw [vecMul_vecMul, ← Matrix.mul_assoc, ← Matrix.mul_assoc, hBA, Matrix.one_mul, ← vecMul_vecMul, vecMul_transpose]
        · rcases h with h | h
          · have hu2 : ¬ IsUnit (-(Bᵀ * r.1 * B)).det := by
              rw [e1]
              exact fun h => hu (isUnit_of_mul_isUnit_right (isUnit_of_mul_isUnit_left h))
            simp only [descentDir, npInv, if_neg hu, if_neg hu2]
            rw [h, mulVec_transpose]
          · refine absurd ?_ hu
            rw [det_neg]
            exact (IsUnit.pow _ isUnit_one.neg).mul (h r hr)
      have e3 : ∀ (w v : Fin d → ℝ) (lam : ℝ), A *ᵥ w - lam • A *ᵥ v = A *ᵥ (w - lam • v) := by
        intro w v lam
        rw [mulVec_sub, mulVec_smul]
      simp only [Except.map, bind, Except.bind, Option.map_some, newtonUpdate, hdir, e3, hl]
      rfl

theorem linFit_coords (hA : A = Bᵀ) (w0 : Fin d → ℝ) :
    linFit P' y' X' (A *ᵥ w0) = (linFit P y X w0).map (Option.map (A *ᵥ ·)) := by
  have hn : ∀ v : Fin d → ℝ, ∑ i, (A *ᵥ v) i ^ 2 = ∑ i, v i ^ 2 := by
    intro v
    have e : ∀ v : Fin d → ℝ, ∑ i, v i ^ 2 = v ⬝ᵥ v := fun v => Finset.sum_congr rfl fun i _ => sq _
    rw [e, e, dotProduct_mulVec, ← mulVec_transpose, mulVec_mulVec]
    rw [show Aᵀ * A = 1 by rw [hA, transpose_transpose, ← hA]; exact mul_eq_one_comm.1 hAB, one_mulVec]
  have hs : ∀ w, linStep P' y' X' (Option.map (A *ᵥ ·) w) = (linStep P y X w).map (Prod.map (Option.map (A *ᵥ ·)) id) := by
    intro w
    cases w with
    | none => rfl
    | some w =>
      simp only [linStep, Option.map_some, linUpdate_coords hAB hd hl w (.inl hA)]
      cases linUpdate P y X npInv w with
      | error e => rfl
      | ok r =>
        cases r with
        | none => rfl
        | some v =>
          have : ∑ i, ((A *ᵥ v) i - (A *ᵥ w) i) ^ 2 = ∑ i, (v i - w i) ^ 2 := by
            have := hn (v - w)
            rw [mulVec_sub] at this
            exact this
          simp only [Except.map, Option.map_some, Prod.map, id, this]
  have hloop : ∀ fuel w go k, linearLoop (linStep P' y' X') 100 fuel (Option.map (A *ᵥ ·) w) go k =
      (linearLoop (linStep P y X) 100 fuel w go k).map fun r => r.map (Prod.map (Option.map (A *ᵥ ·)) id) := by
    intro fuel
    induction fuel with
    | zero => intros; rfl
    | succ fuel ih =>
      intro w go k
      simp only [linearLoop, hs]
      split_ifs
      · cases linStep P y X w with
        | error e => rfl
        | ok r => exact ih _ _ _
      · rfl
  have := hloop 101 (some w0) true 0
  simp only [Option.map_some] at this
  simp only [linFit, this]
  cases linearLoop (linStep P y X) 100 101 (some w0) true 0 with
  | none => rfl
  | some r => cases r <;> rfl

end linear

theorem linValues_coords (X : Matrix (Fin n) (Fin d) ℝ) {A B : Matrix (Fin d) (Fin d) ℝ} (hBA : B * A = 1) (w : Fin d → ℝ) :
    linValues (X * B) (A *ᵥ w) = linValues X w := by
  simp only [linValues, mulVec_mulVec]
  rw [Matrix.mul_assoc, hBA, Matrix.mul_one]

theorem linDerivatives_coords (P : ProbitSet) (y : TrainLabels n) (X : Matrix (Fin n) (Fin d) ℝ)
    {A B : Matrix (Fin d) (Fin d) ℝ} (hBA : B * A = 1) (w : Fin d → ℝ) :
    linDerivatives P y (X * B) (A *ᵥ w) =
      (linDerivatives P y X w).map (Option.map fun r => (Bᵀ * r.1 * B, r.2.1 ᵥ* B, r.2.2)) := by
  simp only [linDerivatives, linValues_coords X hBA]
  cases gpDerivatives P y (linValues X w) with
  | error e => rfl
  | ok r =>
    cases r with
    | none => rfl
    | some r =>
      simp only [Except.map, Option.map_some, transpose_mul, Matrix.mul_assoc, vecMul_vecMul]

end Lop
