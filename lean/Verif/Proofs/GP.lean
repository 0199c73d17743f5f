import Verif.Model.GP
import Verif.Spec.GP
import Verif.Proofs.CovPSD
import Verif.Proofs.CovEntries
import Mathlib.Data.Fin.Tuple.Basic
import Mathlib.LinearAlgebra.Matrix.SchurComplement

/-! The covariance matrix of two point lists together, and Schur complements. -/

namespace Lop

open Matrix Spec

variable {d n t : Nat}

/-- The blocks of a matrix on the concatenated points. -/
structure Blocks (J : Matrix (Fin (n + t)) (Fin (n + t)) ℝ) (A : Matrix (Fin n) (Fin n) ℝ)
    (B : Matrix (Fin n) (Fin t) ℝ) (D : Matrix (Fin t) (Fin t) ℝ) : Prop where
  a : ∀ i j, J (Fin.castAdd t i) (Fin.castAdd t j) = A i j
  b : ∀ i j, J (Fin.castAdd t i) (Fin.natAdd n j) = B i j
  d : ∀ i j, J (Fin.natAdd n i) (Fin.natAdd n j) = D i j

theorem psd_fromBlocks {J : Matrix (Fin (n + t)) (Fin (n + t)) ℝ} {A B D}
    (h : Blocks J A B D) (hJ : J.PosSemidef) : (fromBlocks A B Bᴴ D).PosSemidef := by
  have := hJ.submatrix (finSumFinEquiv : Fin n ⊕ Fin t ≃ Fin (n + t))
  convert this using 1
  ext i j
  rcases i with i | i <;> rcases j with j | j
  · simp [h.a]
  · simp [h.b]
  · have := hJ.isHermitian.apply (Fin.natAdd n i) (Fin.castAdd t j)
    simp only [star_trivial] at this
    simp [← this, h.b]
  · simp [h.d]

/-- The noise on the concatenated points, with the quirk of `RBF_kern.cov`. -/
theorem noise_blocks {noise : ℝ} (h : 0 ≤ noise) (X : Fin n → Pt d) (Y : Fin t → Pt d) :
    ∃ J : Matrix (Fin (n + t)) (Fin (n + t)) ℝ, J.PosSemidef ∧
      Blocks J (noiseTerm noise X X) (noiseTerm noise X Y) (noiseTerm noise Y Y) := by
  classical
  by_cases hs : n = t ∧ ∃ (hn : 0 < n) (hm : 0 < t), X ⟨0, hn⟩ = Y ⟨0, hm⟩
  · let f : Fin (n + t) → Fin n → ℝ := fun i k =>
      Fin.append (fun i : Fin n => if i = k then Real.sqrt noise else 0)
        (fun j : Fin t => if j.val = k.val then Real.sqrt noise else 0) i
    refine ⟨_, psd_gram f, ?_, ?_, ?_⟩
    · intro i j
      rw [noiseTerm_self]
      simp only [of_apply, f, Fin.append_left, Matrix.smul_apply, one_apply, smul_eq_mul, mul_ite, mul_one,
        mul_zero, ite_mul, zero_mul]
      simp only [Finset.sum_ite_eq, Finset.mem_univ, if_true]
      by_cases hij : i = j <;> simp [hij, Real.mul_self_sqrt h]
    · intro i j
      simp only [of_apply, f, Fin.append_left, Fin.append_right]
      rw [Finset.sum_eq_single i (fun b _ hb => by rw [if_neg (Ne.symm hb), zero_mul]) (by simp),
        if_pos rfl]
      by_cases hij : i.val = j.val
      · rw [if_pos hij.symm, noiseTerm_on ⟨hs.1, hs.2, hij⟩, Real.mul_self_sqrt h]
      · rw [if_neg (fun e => hij e.symm), noiseTerm_off (fun e => hij e.2.2), mul_zero]
    · intro i j
      rw [noiseTerm_self]
      obtain ⟨rfl, _⟩ := hs
      simp only [of_apply, f, Fin.append_right, Matrix.smul_apply, one_apply, smul_eq_mul, mul_ite, mul_one,
        mul_zero, ite_mul, zero_mul, ← Fin.ext_iff]
      simp only [Finset.sum_ite_eq, Finset.mem_univ, if_true]
      by_cases hij : i = j <;> simp [hij, Real.mul_self_sqrt h]
  · refine ⟨noise • 1, psd_noise h, ?_, ?_, ?_⟩
    · intro i j
      rw [noiseTerm_self]
      simp [one_apply]
    · intro i j
      have : noiseTerm noise X Y i j = 0 := noiseTerm_off fun e => hs ⟨e.1, e.2.1⟩
      rw [this]
      have hne : Fin.castAdd t i ≠ Fin.natAdd n j := by
        intro e
        have := congrArg Fin.val e
        simp only [Fin.val_castAdd, Fin.val_natAdd] at this
        omega
      simp [hne]
    · intro i j
      rw [noiseTerm_self]
      simp [one_apply]

/-- Blocks of a kernel evaluated at the concatenated points. -/
theorem eval_blocks (f : Pt d → Pt d → ℝ) (X : Fin n → Pt d) (Y : Fin t → Pt d) :
    Blocks (Matrix.of fun i j => f (Fin.append X Y i) (Fin.append X Y j))
      (Matrix.of fun i j => f (X i) (X j)) (Matrix.of fun i j => f (X i) (Y j))
      (Matrix.of fun i j => f (Y i) (Y j)) := by
  constructor <;> intro i j <;> simp

theorem joint_psd (k : KExpr ℝ (Pt d)) (hok : AllLeaves (LeafOK (d = 1)) k)
    (hq : AllLeaves QuietIfZeroed k) (X : Fin n → Pt d) (Y : Fin t → Pt d) (hn : 0 < n)
    {A B D} (hA : k.cov X X = .ok A) (hB : k.cov X Y = .ok B) (hD : k.cov Y Y = .ok D) (ht : 0 < t) :
    ∃ J : Matrix (Fin (n + t)) (Fin (n + t)) ℝ, J.PosSemidef ∧ Blocks J A B D := by
  induction k generalizing A B D with
  | leaf k =>
    cases k with
    | rbf s l noise =>
      obtain ⟨J, hJ, hb⟩ := noise_blocks hok.2 X Y
      simp only [KExpr.cov, KLeaf.cov] at hA hB hD
      rw [rbfCov_ok (by omega)] at hA hB hD
      simp only [Except.ok.injEq] at hA hB hD
      subst hA hB hD
      have he := eval_blocks (rbfEval s l) X Y
      refine ⟨_, (psd_rbf s l (Fin.append X Y)).add hJ, ?_, ?_, ?_⟩ <;> intro i j
      · rw [Matrix.add_apply, he.a, hb.a]; rfl
      · rw [Matrix.add_apply, he.b, hb.b]; rfl
      · rw [Matrix.add_apply, he.d, hb.d]; rfl
    | zeroed s l z noise =>
      have hq0 : noise = 0 := hq
      subst hq0
      have he := eval_blocks (fun u v => rbfEval s l u v
        - rbfEval s l u (zeroPt z) * rbfEval s l (zeroPt z) v / (s * s)) X Y
      refine ⟨_, psd_zeroed s l hok.1 (zeroPt z) (Fin.append X Y), ?_, ?_, ?_⟩ <;> intro i j
      · rw [zeroedCov_entry hA]
        refine (he.a i j).trans ?_
        simp [noiseTerm_zero]
      · rw [zeroedCov_entry hB]
        refine (he.b i j).trans ?_
        simp [noiseTerm_zero]
      · rw [zeroedCov_entry hD]
        refine (he.d i j).trans ?_
        simp [noiseTerm_zero]
    | linear s b c =>
      simp only [KExpr.cov, KLeaf.cov, Except.ok.injEq] at hA hB hD
      subst hA hB hD
      exact ⟨_, psd_linear s b c (Fin.append X Y), eval_blocks (linEval s b c) X Y⟩
    | periodic s l p =>
      simp only [KExpr.cov, KLeaf.cov, Except.ok.injEq] at hA hB hD
      subst hA hB hD
      obtain ⟨_, _, hd⟩ := hok
      subst hd
      exact ⟨_, psd_periodic s l p (Fin.append X Y), eval_blocks (perEval s l p) X Y⟩
  | dual op a b iha ihb =>
    obtain ⟨aA, bA, haA, hbA, eA⟩ := dual_cov_inv hA
    obtain ⟨aB, bB, haB, hbB, eB⟩ := dual_cov_inv hB
    obtain ⟨aD, bD, haD, hbD, eD⟩ := dual_cov_inv hD
    obtain ⟨Ja, pa, ba⟩ := iha hok.1 hq.1 haA haB haD
    obtain ⟨Jb, pb, bb⟩ := ihb hok.2 hq.2 hbA hbB hbD
    cases op with
    | add =>
      refine ⟨_, psd_add pa pb, ?_, ?_, ?_⟩ <;> intro i j
      · simp only [of_apply, ba.a, bb.a, eA]
      · simp only [of_apply, ba.b, bb.b, eB]
      · simp only [of_apply, ba.d, bb.d, eD]
    | mul =>
      refine ⟨_, psd_mul pa pb, ?_, ?_, ?_⟩ <;> intro i j
      · simp only [of_apply, ba.a, bb.a, eA]
      · simp only [of_apply, ba.b, bb.b, eB]
      · simp only [of_apply, ba.d, bb.d, eD]

/-- Adding training noise to the last block. -/
theorem psd_fromBlocks_add {A : Matrix (Fin n) (Fin n) ℝ} {B : Matrix (Fin n) (Fin t) ℝ}
    {D : Matrix (Fin t) (Fin t) ℝ} (h : (fromBlocks A B Bᴴ D).PosSemidef) {s : Fin t → ℝ}
    (hs : ∀ j, 0 ≤ s j) : (fromBlocks A B Bᴴ (D + diagonal s)).PosSemidef := by
  have h2 : (diagonal (Sum.elim (fun _ : Fin n => (0 : ℝ)) s)).PosSemidef :=
    PosSemidef.diagonal fun i => by rcases i with i | i <;> simp [hs]
  have := h.add h2
  convert this using 1
  ext i j
  rcases i with i | i <;> rcases j with j | j <;> simp [diagonal_apply]

theorem schur_psd {A : Matrix (Fin n) (Fin n) ℝ} {B : Matrix (Fin n) (Fin t) ℝ}
    {D : Matrix (Fin t) (Fin t) ℝ} (h : (fromBlocks A B Bᴴ D).PosSemidef) (hD : D.PosDef) :
    (A - B * (D⁻¹ * Bᵀ)).PosSemidef := by
  have : Invertible D := hD.isUnit.invertible
  have := (PosDef.fromBlocks₂₂ A B hD).1 h
  rwa [conjTranspose_eq_transpose_of_trivial, Matrix.mul_assoc] at this

theorem reduction_psd (B : Matrix (Fin n) (Fin t) ℝ)
    {D : Matrix (Fin t) (Fin t) ℝ} (hD : D.PosDef) : (B * (D⁻¹ * Bᵀ)).PosSemidef := by
  have := hD.inv.posSemidef.mul_mul_conjTranspose_same B
  rwa [conjTranspose_eq_transpose_of_trivial, Matrix.mul_assoc] at this

/-- Without observation noise the entries of `cov` depend on the two points only. -/
theorem cov_pointwise (k : KExpr ℝ (Pt d)) (hq : AllLeaves NoNoise k) :
    ∃ g : Pt d → Pt d → ℝ, ∀ {n m : Nat} (X : Fin n → Pt d) (Y : Fin m → Pt d) c,
      k.cov X Y = .ok c → ∀ i j, c i j = g (X i) (Y j) := by
  induction k with
  | leaf k =>
    cases k with
    | rbf s l noise =>
      have hq0 : noise = 0 := hq
      subst hq0
      refine ⟨rbfEval s l, fun X Y c hc i j => ?_⟩
      have hn := i.pos
      simp only [KExpr.cov, KLeaf.cov] at hc
      rw [rbfCov_ok (by omega)] at hc
      simp only [Except.ok.injEq] at hc
      subst hc
      simp [noiseTerm_zero]
    | zeroed s l z noise =>
      have hq0 : noise = 0 := hq
      subst hq0
      refine ⟨fun u v => rbfEval s l u v
        - rbfEval s l u (zeroPt z) * rbfEval s l (zeroPt z) v / (s * s), fun X Y c hc i j => ?_⟩
      rw [zeroedCov_entry hc]
      simp [noiseTerm_zero]
    | linear s b c =>
      refine ⟨linEval s b c, fun X Y c hc i j => ?_⟩
      simp only [KExpr.cov, KLeaf.cov, Except.ok.injEq] at hc
      subst hc
      rfl
    | periodic s l p =>
      refine ⟨perEval s l p, fun X Y c hc i j => ?_⟩
      simp only [KExpr.cov, KLeaf.cov, Except.ok.injEq] at hc
      subst hc
      rfl
  | dual op a b iha ihb =>
    obtain ⟨ga, ha⟩ := iha hq.1
    obtain ⟨gb, hb⟩ := ihb hq.2
    cases op with
    | add =>
      refine ⟨fun u v => ga u v + gb u v, fun X Y c hc i j => ?_⟩
      obtain ⟨ca, cb, hca, hcb, e⟩ := dual_cov_inv hc
      rw [e]
      simp only [ha X Y ca hca, hb X Y cb hcb]
    | mul =>
      refine ⟨fun u v => ga u v * gb u v, fun X Y c hc i j => ?_⟩
      obtain ⟨ca, cb, hca, hcb, e⟩ := dual_cov_inv hc
      rw [e]
      simp only [ha X Y ca hca, hb X Y cb hcb]

theorem quiet_of_noNoise (k : KExpr ℝ (Pt d)) (h : AllLeaves NoNoise k) :
    AllLeaves QuietIfZeroed k := by
  induction k with
  | leaf k => cases k <;> simp_all [AllLeaves, NoNoise, QuietIfZeroed, noiseOf]
  | dual op a b iha ihb => exact ⟨iha h.1, ihb h.2⟩

/-- What a successful prediction computed. -/
theorem gpRegress_inv {cov : CovFn d} {mean : Pt d → ℝ} {rows : List (Pt d × ℝ × ℝ)}
    {X : Fin n → Pt d} {p : GPPred n} (h : gpRegress cov mean (some rows) X = .ok p) :
    ∃ A B C, cov _ _ X X = .ok A ∧ cov _ _ X (fun j : Fin rows.length => (rows.get j).1) = .ok B ∧
      cov _ _ (fun j : Fin rows.length => (rows.get j).1)
        (fun j : Fin rows.length => (rows.get j).1) = .ok C ∧
      (C + diagonal fun j => (rows.get j).2.2).PosDef ∧
      p.cov = A - B * ((C + diagonal fun j => (rows.get j).2.2)⁻¹ * Bᵀ) ∧
      (∀ i, p.mu i = (B *ᵥ ((C + diagonal fun j => (rows.get j).2.2)⁻¹ *ᵥ
        fun j => (rows.get j).2.1)) i + mean (X i)) ∧
      ∀ i, p.sigma i = max 0 (p.cov i i) := by
  unfold gpRegress at h
  simp only at h
  split at h
  · cases h
  · rename_i A hA
    split at h
    · cases h
    · rename_i B hB
      split at h
      · cases h
      · rename_i C hC
        split at h
        · rename_i hpd
          simp only [Except.ok.injEq] at h
          subst h
          exact ⟨A, B, C, hA, hB, hC, hpd, rfl, fun _ => rfl, fun _ => rfl⟩
        · cases h

/-- The error covariance of the linear predictor with weights `W`. -/
theorem error_cov_identity {A : Matrix (Fin n) (Fin n) ℝ} {B : Matrix (Fin n) (Fin t) ℝ}
    {D : Matrix (Fin t) (Fin t) ℝ} (hD : D.PosDef) (W : Matrix (Fin n) (Fin t) ℝ) :
    ((A - W * Bᵀ - B * Wᵀ + W * D * Wᵀ) - (A - B * (D⁻¹ * Bᵀ))).PosSemidef := by
  have hu : IsUnit D.det := (Matrix.isUnit_iff_isUnit_det _).1 hD.isUnit
  have hsym : Dᵀ = D := by
    have := hD.isHermitian.eq
    rwa [conjTranspose_eq_transpose_of_trivial] at this
  have h := hD.posSemidef.mul_mul_conjTranspose_same (W - B * D⁻¹)
  convert h using 1
  rw [conjTranspose_eq_transpose_of_trivial, transpose_sub, transpose_mul, transpose_nonsing_inv,
    hsym]
  simp only [Matrix.sub_mul, Matrix.mul_sub, Matrix.mul_assoc]
  rw [Matrix.mul_nonsing_inv_cancel_left _ _ hu, Matrix.nonsing_inv_mul_cancel_left _ _ hu]
  abel

end Lop
