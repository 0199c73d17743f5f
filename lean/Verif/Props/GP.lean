import Verif.Proofs.GP
import Mathlib.Data.Fin.VecNotation
import Mathlib.Tactic.NormNum

/-! # C43: GP regression -/

namespace Lop.Props

open Lop Lop.Spec Matrix

variable {d n : Nat}

/-- C43: every prediction from training data has a positive semidefinite covariance, at most the
prior covariance; the returned variances are its diagonal (the clamp at zero never acts) and lie
between zero and the prior variances. -/
theorem C43_posterior (k : KExpr ℝ (Pt d)) (hok : AllLeaves (LeafOK (d = 1)) k)
    (hq : AllLeaves QuietIfZeroed k) (mean : Pt d → ℝ) (rows : List (Pt d × ℝ × ℝ))
    (hs : ∀ r ∈ rows, 0 ≤ r.2.2) (X : Fin n → Pt d) (hn : 0 < n) {p : GPPred n}
    (h : gpRegress (kcov k) mean (some rows) X = .ok p) :
    ∃ prior, k.cov X X = .ok prior ∧ p.cov.PosSemidef ∧ LoewnerLE p.cov prior ∧
      ∀ i, p.sigma i = p.cov i i ∧ 0 ≤ p.sigma i ∧ p.sigma i ≤ prior i i := by
  obtain ⟨A, B, C, hA, hB, hC, hpd, hcov, hmu, hsig⟩ := gpRegress_inv h
  have hpsd : p.cov.PosSemidef := by
    rw [hcov]
    refine schur_psd ?_ hpd
    refine psd_fromBlocks_add ?_ fun j => hs _ (List.get_mem _ _)
    rcases Nat.eq_zero_or_pos rows.length with ht | ht
    · have hAp : A.PosSemidef := by
        have : k.cov X X = .ok A := hA
        have hap : ∃ J : Matrix (Fin (n + n)) (Fin (n + n)) ℝ, J.PosSemidef ∧ Blocks J A A A :=
          joint_psd k hok hq X X hn this this this hn
        obtain ⟨J, hJ, hb⟩ := hap
        have := hJ.submatrix (Fin.castAdd n)
        convert this using 1
        ext i j
        simp [hb.a]
      have e : IsEmpty (Fin rows.length) := by rw [ht]; infer_instance
      have := hAp.submatrix (Sum.elim id (fun j : Fin rows.length => e.elim j))
      convert this using 1
      ext i j
      rcases i with i | i
      · rcases j with j | j
        · simp
        · exact e.elim j
      · exact e.elim i
    · obtain ⟨J, hJ, hb⟩ := joint_psd k hok hq X _ hn hA hB hC ht
      exact psd_fromBlocks hb hJ
  have hred : LoewnerLE p.cov A := by
    unfold LoewnerLE
    rw [hcov, sub_sub_cancel]
    exact reduction_psd B hpd
  refine ⟨A, hA, hpsd, hred, fun i => ?_⟩
  have h0 : 0 ≤ p.cov i i := hpsd.diag_nonneg
  have h1 : p.sigma i = p.cov i i := by rw [hsig, max_eq_right h0]
  refine ⟨h1, h1 ▸ h0, ?_⟩
  have : 0 ≤ (A - p.cov) i i := hred.diag_nonneg
  rw [h1]
  exact sub_nonneg.1 this

/-- C43: with positive training noise (the default is `0.0005`) prediction never raises. -/
theorem C43_returns (k : KExpr ℝ (Pt d)) (hok : AllLeaves (LeafOK (d = 1)) k)
    (hq : AllLeaves QuietIfZeroed k) (mean : Pt d → ℝ) (rows : List (Pt d × ℝ × ℝ))
    (hne : rows ≠ []) (hs : ∀ r ∈ rows, 0 < r.2.2) (X : Fin n → Pt d) (hn : 0 < n) :
    ∃ p, gpRegress (kcov k) mean (some rows) X = .ok p := by
  have ht : 0 < rows.length := List.length_pos_iff.2 hne
  obtain ⟨A, hA⟩ := cov_returns k X X hn
  obtain ⟨B, hB⟩ := cov_returns k X (fun j : Fin rows.length => (rows.get j).1) hn
  obtain ⟨C, hC⟩ := cov_returns k (fun j : Fin rows.length => (rows.get j).1)
    (fun j : Fin rows.length => (rows.get j).1) ht
  have hCp : C.PosSemidef := by
    obtain ⟨J, hJ, hb⟩ := joint_psd k hok hq _ _ ht hC hC hC ht
    have := hJ.submatrix (Fin.castAdd rows.length)
    convert this using 1
    ext i j
    simp [hb.a]
  have hpd : (C + diagonal fun j => (rows.get j).2.2).PosDef := by
    have : (diagonal fun j : Fin rows.length => (rows.get j).2.2).PosDef :=
      posDef_diagonal_iff.2 fun j => hs _ (List.get_mem _ _)
    rw [add_comm]
    exact this.add_posSemidef hCp
  unfold gpRegress
  simp only [kcov, hA, hB, hC, if_pos hpd]
  exact ⟨_, rfl⟩

/-- C43: the prediction is the best linear one. There are weights `W` such that the mean is
`mean_func` plus the weighted stored residuals, `self.cov` is the error covariance of these weights
under the kernel, and no other weights have a smaller error covariance. -/
theorem C43_best_linear (k : KExpr ℝ (Pt d)) (mean : Pt d → ℝ) (rows : List (Pt d × ℝ × ℝ))
    (X : Fin n → Pt d) {p : GPPred n} (h : gpRegress (kcov k) mean (some rows) X = .ok p) :
    ∃ A B C, k.cov X X = .ok A ∧ k.cov X (fun j : Fin rows.length => (rows.get j).1) = .ok B ∧
      k.cov (fun j : Fin rows.length => (rows.get j).1)
        (fun j : Fin rows.length => (rows.get j).1) = .ok C ∧
      ∃ W : Matrix (Fin n) (Fin rows.length) ℝ,
        (∀ i, p.mu i = mean (X i) + ∑ j, W i j * (rows.get j).2.1) ∧
        p.cov = A - W * Bᵀ - B * Wᵀ + W * (C + diagonal fun j => (rows.get j).2.2) * Wᵀ ∧
        ∀ W' : Matrix (Fin n) (Fin rows.length) ℝ, LoewnerLE p.cov
          (A - W' * Bᵀ - B * W'ᵀ + W' * (C + diagonal fun j => (rows.get j).2.2) * W'ᵀ) := by
  obtain ⟨A, B, C, hA, hB, hC, hpd, hcov, hmu, hsig⟩ := gpRegress_inv h
  refine ⟨A, B, C, hA, hB, hC, B * (C + diagonal fun j => (rows.get j).2.2)⁻¹, fun i => ?_, ?_, ?_⟩
  · rw [hmu, mulVec_mulVec, add_comm]
    rfl
  · rw [hcov]
    generalize (C + diagonal fun j => (rows.get j).2.2) = D at hpd
    have hu : IsUnit D.det := (Matrix.isUnit_iff_isUnit_det _).1 hpd.isUnit
    have hsym : Dᵀ = D := by
      have := hpd.isHermitian.eq
      rwa [conjTranspose_eq_transpose_of_trivial] at this
    rw [transpose_mul, transpose_nonsing_inv, hsym]
    simp only [Matrix.mul_assoc]
    rw [Matrix.nonsing_inv_mul_cancel_left _ _ hu]
    abel
  · intro W'
    unfold LoewnerLE
    rw [hcov]
    exact error_cov_identity hpd W'

/-- C43: without noise a fresh GP reproduces the training targets, with zero variance, at every query
point which is a training point. -/
theorem C43_interpolates (k : KExpr ℝ (Pt d)) (hq : AllLeaves NoNoise k) (mean : Pt d → ℝ)
    (data : List (Pt d × ℝ)) (X : Fin n → Pt d) {p : GPPred n}
    (h : gpRegress (kcov k) mean (gpAdd mean none (data.map fun r => (r.1, r.2, 0))) X = .ok p)
    (i : Fin n) (r : Pt d × ℝ) (hr : r ∈ data) (hx : X i = r.1) :
    p.mu i = r.2 ∧ p.sigma i = 0 := by
  simp only [gpAdd, List.map_map] at h
  set rows := data.map ((fun r : Pt d × ℝ × ℝ => (r.1, r.2.1 - mean r.1, r.2.2)) ∘
    fun r : Pt d × ℝ => (r.1, r.2, (0 : ℝ))) with hrows
  obtain ⟨A, B, C, hA, hB, hC, hpd, hcov, hmu, hsig⟩ := gpRegress_inv h
  have hmem : ∀ r ∈ rows, r.2.2 = 0 := by
    intro r hr
    rw [hrows] at hr
    simp only [List.mem_map, Function.comp] at hr
    obtain ⟨a, _, ha⟩ := hr
    exact (congrArg (fun r => r.2.2) ha).symm
  have hz : ∀ j : Fin rows.length, (rows.get j).2.2 = 0 := fun j => hmem _ (List.get_mem rows j)
  have hd : (diagonal fun j : Fin rows.length => (rows.get j).2.2) = 0 := by
    ext a b
    simp only [diagonal_apply, hz, ite_self, Matrix.zero_apply]
  rw [hd, add_zero] at hpd hcov
  rw [hd, add_zero] at hmu
  have hu : IsUnit C.det := (Matrix.isUnit_iff_isUnit_det _).1 hpd.isUnit
  obtain ⟨j, hj⟩ : ∃ j : Fin rows.length, rows.get j = (r.1, r.2 - mean r.1, 0) := by
    apply List.mem_iff_get.1
    rw [hrows]
    exact List.mem_map.2 ⟨r, hr, rfl⟩
  obtain ⟨g, hg⟩ := cov_pointwise k hq
  have hBC : B i = C j := by
    funext l
    rw [hg _ _ _ hB, hg _ _ _ hC, hx, hj]
  have hAC : A i i = C j j := by rw [hg _ _ _ hA, hg _ _ _ hC, hx, hj]
  constructor
  · rw [hmu]
    have : (B *ᵥ (C⁻¹ *ᵥ fun j => (rows.get j).2.1)) i
        = (C *ᵥ (C⁻¹ *ᵥ fun j => (rows.get j).2.1)) j := by
      simp only [mulVec, hBC]
    rw [this, mulVec_mulVec, Matrix.mul_nonsing_inv _ hu, one_mulVec, hj, hx]
    simp
  · have h1 : (B * (C⁻¹ * Bᵀ)) i i = (C * (C⁻¹ * Bᵀ)) j i := by
      simp only [Matrix.mul_apply, hBC]
    rw [hsig, hcov, Matrix.sub_apply, h1, Matrix.mul_nonsing_inv_cancel_left _ _ hu,
      transpose_apply, hAC, hBC, sub_self, max_self]

/-- C43: without kernel noise, adding training data never increases the posterior covariance. -/
theorem C43_more_data (k : KExpr ℝ (Pt d)) (hq : AllLeaves NoNoise k) (mean : Pt d → ℝ)
    (rows new : List (Pt d × ℝ × ℝ)) (X : Fin n → Pt d) {p p' : GPPred n}
    (h : gpRegress (kcov k) mean (some rows) X = .ok p)
    (h' : gpRegress (kcov k) mean (gpAdd mean (some rows) new) X = .ok p') :
    LoewnerLE p'.cov p.cov ∧ ∀ i, p'.sigma i ≤ p.sigma i := by
  simp only [gpAdd] at h'
  set rows' := rows ++ new.map fun r : Pt d × ℝ × ℝ => (r.1, r.2.1 - mean r.1, r.2.2) with hrows
  obtain ⟨A, B, C, hA, hB, hC, hpd, hcov, hmu, hsig⟩ := gpRegress_inv h
  obtain ⟨A', B', C', hA', hB', hC', hpd', hcov', hmu', hsig'⟩ := gpRegress_inv h'
  obtain ⟨g, hg⟩ := cov_pointwise k hq
  have hAA : A' = A := by
    ext i j
    rw [hg _ _ _ hA, hg _ _ _ hA']
  have hlen : rows.length ≤ rows'.length := by simp [hrows]
  let e : Fin rows.length → Fin rows'.length := Fin.castLE hlen
  have hget : ∀ j, rows'.get (e j) = rows.get j := by
    intro j
    simp only [List.get_eq_getElem, e, Fin.val_castLE, hrows]
    exact List.getElem_append_left j.isLt
  have hein : Function.Injective e := Fin.castLE_injective hlen
  let P : Matrix (Fin rows.length) (Fin rows'.length) ℝ :=
    (1 : Matrix (Fin rows'.length) (Fin rows'.length) ℝ).submatrix e id
  have hBP : B' * Pᵀ = B := by
    ext i j
    simp only [P, Matrix.mul_apply, transpose_apply, submatrix_apply, id_eq, one_apply, mul_ite,
      mul_one, mul_zero, Finset.sum_ite_eq, Finset.mem_univ, if_true]
    rw [hg _ _ _ hB, hg _ _ _ hB', hget]
  set D' := C' + diagonal fun j => (rows'.get j).2.2 with hD'
  set D := C + diagonal fun j => (rows.get j).2.2 with hD
  have hDP : P * D' * Pᵀ = D := by
    ext i j
    simp only [P, Matrix.mul_apply, transpose_apply, submatrix_apply, id_eq, one_apply, mul_ite,
      mul_one, mul_zero, ite_mul, one_mul, zero_mul, Finset.sum_ite_eq, Finset.mem_univ, if_true]
    rw [hD, hD', Matrix.add_apply, Matrix.add_apply, hg _ _ _ hC, hg _ _ _ hC', hget, hget]
    congr 1
    by_cases hij : i = j
    · subst hij
      rw [diagonal_apply_eq, diagonal_apply_eq, hget]
    · rw [diagonal_apply_ne _ hij, diagonal_apply_ne _ fun he => hij (hein he)]
  have hu : IsUnit D.det := (Matrix.isUnit_iff_isUnit_det _).1 hpd.isUnit
  have hsym : Dᵀ = D := by
    have := hpd.isHermitian.eq
    rwa [conjTranspose_eq_transpose_of_trivial] at this
  have hle : LoewnerLE p'.cov p.cov := by
    have := error_cov_identity (A := A) (B := B') hpd' (B * D⁻¹ * P)
    unfold LoewnerLE
    rw [hcov', hcov, hAA]
    convert this using 2
    have e1 : B * D⁻¹ * P * B'ᵀ = B * (D⁻¹ * Bᵀ) := by
      have : P * B'ᵀ = Bᵀ := by rw [← hBP, transpose_mul, transpose_transpose]
      rw [Matrix.mul_assoc, Matrix.mul_assoc, this]
    have e2 : B' * (B * D⁻¹ * P)ᵀ = B * (D⁻¹ * Bᵀ) := by
      rw [transpose_mul, transpose_mul, transpose_nonsing_inv, hsym, ← Matrix.mul_assoc, hBP]
    have e3 : B * D⁻¹ * P * D' * (B * D⁻¹ * P)ᵀ = B * (D⁻¹ * Bᵀ) := by
      have : B * D⁻¹ * P * D' * (B * D⁻¹ * P)ᵀ = B * D⁻¹ * (P * D' * Pᵀ) * (B * D⁻¹)ᵀ := by
        rw [transpose_mul _ P]
        simp only [Matrix.mul_assoc]
      rw [this, hDP, transpose_mul, transpose_nonsing_inv, hsym, Matrix.mul_assoc B,
        Matrix.nonsing_inv_mul _ hu, Matrix.mul_one]
    rw [e1, e2, e3]
    abel
  refine ⟨hle, fun i => ?_⟩
  rw [hsig, hsig']
  have : 0 ≤ (p.cov - p'.cov) i i := hle.diag_nonneg
  exact max_le_max le_rfl (sub_nonneg.1 this)

/-- C43, without data: with the default (zero) mean function the mean function is returned, together
with the prior covariance and, as variances, its diagonal (not below 0). Missing: other mean functions, see `C43_no_data_false`. -/
theorem C43_no_data_partial (k : KExpr ℝ (Pt d)) (st : GPState d) (X : Fin n → Pt d) (hn : 0 < n) :
    ∃ prior p, k.cov X X = .ok prior ∧
      gpRegress (kcov k) (fun _ => 0) (gpReset st) X = .ok p ∧ (∀ i, p.mu i = 0) ∧ p.cov = prior ∧
      ∀ i, p.sigma i = max 0 (prior i i) := by
  obtain ⟨A, hA⟩ := cov_returns k X X hn
  exact ⟨A, _, hA, by simp only [gpRegress, gpReset, kcov, hA]; rfl, fun _ => rfl, rfl, fun _ => rfl⟩

/-- C43, without data: a mean function given to the constructor is ignored; whenever it is not zero at
a query point the returned mean is wrong there. -/
theorem C43_no_data_false (k : KExpr ℝ (Pt d)) (mean : Pt d → ℝ) (X : Fin n → Pt d) (i : Fin n)
    (hm : mean (X i) ≠ 0) :
    ∃ p, gpRegress (kcov k) mean none X = .ok p ∧ p.mu i ≠ mean (X i) := by
  obtain ⟨A, hA⟩ := cov_returns k X X i.pos
  refine ⟨_, by simp only [gpRegress, kcov, hA]; rfl, fun h => hm h.symm⟩

/-- C43: `reset` forgets everything: predictions, also after new data, are those of a new object. -/
theorem C43_reset (cov : CovFn d) (mean : Pt d → ℝ) (st : GPState d) (rows : List (Pt d × ℝ × ℝ)) (X : Fin n → Pt d) :
    gpRegress cov mean (gpReset st) X = gpRegress cov mean none X ∧
      gpRegress cov mean (gpAdd mean (gpReset st) rows) X = gpRegress cov mean (gpAdd mean none rows) X :=
  ⟨rfl, rfl⟩

/-! ## The hypotheses can be met -/

example : AllLeaves (LeafOK ((1 : Nat) = 1))
      (.dual .add (.leaf (.rbf 1 1 0)) (.leaf (.linear 1 1 0)) : KExpr ℝ (Pt 1)) ∧
    AllLeaves NoNoise (.dual .add (.leaf (.rbf 1 1 0)) (.leaf (.linear 1 1 0)) : KExpr ℝ (Pt 1)) := by
  simp [AllLeaves, LeafOK, NoNoise, noiseOf]

/-- A prediction without training noise which returns (for `C43_interpolates`, `C43_more_data`). -/
example : ∃ p, gpRegress (kcov (.leaf (.rbf 1 1 0) : KExpr ℝ (Pt 1))) (fun _ => 3)
    (gpAdd (fun _ => 3) none ([((![5] : Pt 1), (7 : ℝ))].map fun r => (r.1, r.2, 0)))
    (fun _ : Fin 1 => ![5]) = .ok p := by
  have hpd : ((Matrix.of fun _ _ : Fin 1 => (1 : ℝ)) + diagonal fun _ => 0).PosDef := by
    have : ((Matrix.of fun _ _ : Fin 1 => (1 : ℝ)) + diagonal fun _ => 0) = 1 := by
      ext i j
      have : i = j := Subsingleton.elim _ _
      subst this
      simp
    rw [this]
    exact PosDef.one
  have hc : (KExpr.leaf (.rbf 1 1 0) : KExpr ℝ (Pt 1)).cov (fun _ : Fin 1 => (![5] : Pt 1))
      (fun _ : Fin 1 => ![5]) = .ok (Matrix.of fun _ _ => 1) := by
    simp only [KExpr.cov, KLeaf.cov]
    rw [rbfCov_ok (by omega)]
    congr 1
    ext i j
    simp [noiseTerm_zero, rbfEval_self]
  have e : ∀ j : Fin 1, ([((![5] : Pt 1), (7 : ℝ) - 3, (0 : ℝ))].get j) = (![5], 7 - 3, 0) := by
    intro j
    have : j = 0 := Subsingleton.elim _ _
    subst this
    rfl
  simp only [gpAdd, List.map_cons, List.map_nil, gpRegress, kcov]
  have h2 : (fun j : Fin [((![5] : Pt 1), (7 : ℝ) - 3, (0 : ℝ))].length =>
      ([((![5] : Pt 1), (7 : ℝ) - 3, (0 : ℝ))].get j).1) = fun _ => ![5] := by
    funext j
    exact congrArg Prod.fst (e j)
  have h3 : (fun j : Fin [((![5] : Pt 1), (7 : ℝ) - 3, (0 : ℝ))].length =>
      ([((![5] : Pt 1), (7 : ℝ) - 3, (0 : ℝ))].get j).2.2) = fun _ => 0 := by
    funext j
    exact congrArg (fun r => r.2.2) (e j)
  rw [h2, h3]
  simp only [List.length_cons, List.length_nil, Nat.reduceAdd, hc]
  exact ⟨_, if_pos hpd⟩

end Lop.Props
