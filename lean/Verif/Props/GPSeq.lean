import Verif.Proofs.GPSeq
import Verif.Props.GP
import Verif.Props.Cov

/-! # C115: GP regression does not depend on how the data arrived -/

namespace Lop.Props

open Lop.Spec Matrix

variable {n t d : Nat}

/-- C115: without kernel noise the order of the training data is irrelevant, for means, variances, covariances and
for whether `predict` raises. -/
theorem C115_order (k : KExpr ℝ (Pt d)) (hq : AllLeaves NoNoise k) (mean : Pt d → ℝ)
    {rows rows' : List (Pt d × ℝ × ℝ)} (hp : rows'.Perm rows) (X : Fin n → Pt d) (hn : 0 < n) :
    gpRegress (kcov k) mean (some rows') X = gpRegress (kcov k) mean (some rows) X := by
  rcases rows.eq_nil_or_concat with rfl | hne
  · rw [hp.eq_nil]
  have ht : 0 < rows.length := by
    obtain ⟨l, b, rfl⟩ := hne
    simp
  have ht' : 0 < rows'.length := by rwa [hp.length_eq]
  obtain ⟨σ, hσ⟩ := perm_equiv hp
  obtain ⟨g, hg⟩ := cov_pointwise k hq
  obtain ⟨A, hA⟩ := cov_returns k X X hn
  obtain ⟨B, hB⟩ := cov_returns k X (fun j : Fin rows.length => (rows.get j).1) hn
  obtain ⟨C, hC⟩ := cov_returns k (fun j : Fin rows.length => (rows.get j).1)
    (fun j : Fin rows.length => (rows.get j).1) ht
  obtain ⟨B', hB'⟩ := cov_returns k X (fun j : Fin rows'.length => (rows'.get j).1) hn
  obtain ⟨C', hC'⟩ := cov_returns k (fun j : Fin rows'.length => (rows'.get j).1)
    (fun j : Fin rows'.length => (rows'.get j).1) ht'
  have eB : B' = B.submatrix id σ := by
    ext i j
    rw [submatrix_apply, hg _ _ _ hB, hg _ _ _ hB', hσ]
    rfl
  have eD : (C' + diagonal fun j => (rows'.get j).2.2) = (C + diagonal fun j => (rows.get j).2.2).submatrix σ σ := by
    ext i j
    rw [submatrix_apply, Matrix.add_apply, Matrix.add_apply, hg _ _ _ hC, hg _ _ _ hC', hσ, hσ]
    congr 1
    by_cases hij : i = j
    · subst hij
      rw [diagonal_apply_eq, diagonal_apply_eq, hσ]
    · rw [diagonal_apply_ne _ hij, diagonal_apply_ne _ fun h => hij (σ.injective h)]
  have ey : (fun j => (rows'.get j).2.1) = (fun j => (rows.get j).2.1) ∘ σ := by
    funext j
    simp only [Function.comp, hσ]
  rw [gpRegress_eq (cov := kcov k) mean hA hB hC, gpRegress_eq (cov := kcov k) mean hA hB' hC', eD, eB, ey]
  set D := C + diagonal fun j => (rows.get j).2.2 with hD
  have hpd : (D.submatrix σ σ).PosDef ↔ D.PosDef := by
    constructor
    · intro h
      have := h.submatrix (e := σ.symm) σ.symm.injective
      simpa using this
    · intro h
      exact h.submatrix σ.injective
  have e1 : (D.submatrix σ σ)⁻¹ = D⁻¹.submatrix σ σ := inv_submatrix_equiv D σ σ
  have e2 : B.submatrix id σ * ((D⁻¹).submatrix σ σ * (B.submatrix id σ)ᵀ) = B * (D⁻¹ * Bᵀ) := by
    rw [transpose_submatrix, submatrix_mul_equiv, submatrix_mul_equiv, submatrix_id_id]
  have e3 : B.submatrix id σ *ᵥ ((D⁻¹).submatrix σ σ *ᵥ ((fun j => (rows.get j).2.1) ∘ σ)) =
      B *ᵥ (D⁻¹ *ᵥ fun j => (rows.get j).2.1) := by
    rw [submatrix_mulVec_equiv, submatrix_mulVec_equiv]
    simp [Function.comp_def]
  by_cases hpos : D.PosDef
  · rw [if_pos hpos, if_pos (hpd.2 hpos), e1, e2, e3]
  · rw [if_neg hpos, if_neg fun h => hpos (hpd.1 h)]

/-- With noise in the kernel it is false: with the default RBF kernel two training rows in the other order give
another mean at the first of the two training points (asked for together with the second one). -/
theorem C115_noisy_order : ∃ (rows rows' : List (Pt 1 × ℝ × ℝ)) (p p' : GPPred 2), rows'.Perm rows ∧
    gpRegress (kcov (.leaf (.rbf 1 1 (1 / 100)))) (fun _ => 0) (some rows) ![![0], ![1]] = .ok p ∧
    gpRegress (kcov (.leaf (.rbf 1 1 (1 / 100)))) (fun _ => 0) (some rows') ![![0], ![1]] = .ok p' ∧
    p.mu 0 = 1 + 1 / 100 ∧ p'.mu 0 = 1 := by
  set k : KExpr ℝ (Pt 1) := .leaf (.rbf 1 1 (1 / 100)) with hk
  set E := Real.exp (-1 / 2) with hE
  set r0 : Pt 1 × ℝ × ℝ := (![0], 1 + 1 / 100 + 1 / 2000, 1 / 2000) with hr0
  set r1 : Pt 1 × ℝ × ℝ := (![1], E, 1 / 2000) with hr1
  have hret : ∀ rows : List (Pt 1 × ℝ × ℝ), rows ≠ [] → (∀ r ∈ rows, 0 < r.2.2) →
      ∃ p, gpRegress (kcov k) (fun _ => 0) (some rows) (![![0], ![1]] : Fin 2 → Pt 1) = .ok p := fun rows h1 h2 =>
    C43_returns k (by simp [hk, AllLeaves, LeafOK]) (by simp [hk, AllLeaves, QuietIfZeroed]) _ rows h1 h2 _ (by norm_num)
  have ent : ∀ (Y Z : Fin 2 → Pt 1) c, kcov k 2 2 Y Z = .ok c → ∀ i j,
      c i j = if Y 0 = Z 0 ∧ i = j then k.eval (Y i) (Z j) + 1 / 100 else k.eval (Y i) (Z j) := by
    intro Y Z c hc i j
    obtain ⟨c', hc', h⟩ := C32_exact k (by simp [hk, AllLeaves, NotZeroed]) Y Z (by norm_num)
    have hc2 : k.cov Y Z = .ok c := hc
    rw [hc2] at hc'
    obtain rfl := Except.ok.inj hc'
    by_cases hs : NoiseSpot Y Z i j
    · rw [(h i j).1 hs, if_pos]
      · simp [hk, evalNoisy, noiseOf, KExpr.eval]
      · obtain ⟨-, ⟨_, _, h0⟩, hij⟩ := hs
        exact ⟨h0, Fin.ext hij⟩
    · rw [(h i j).2 hs, if_neg]
      rintro ⟨h0, rfl⟩
      exact hs ⟨rfl, ⟨by norm_num, by norm_num, h0⟩, rfl⟩
  have evk : ∀ a b : ℝ, k.eval ![a] ![b] = Real.exp (-(a - b) ^ 2 / 2) := by
    intro a b
    simp [hk, KExpr.eval, KLeaf.eval, rbfEval, sqDist]
    ring
  have solve2 : ∀ {D : Matrix (Fin 2) (Fin 2) ℝ} {y w : Fin 2 → ℝ}, D.PosDef → D *ᵥ w = y → D⁻¹ *ᵥ y = w := by
    intro D y w hD h
    rw [← h, mulVec_mulVec, nonsing_inv_mul _ ((isUnit_iff_isUnit_det _).1 hD.isUnit), one_mulVec]
  obtain ⟨p, hp⟩ := hret [r0, r1] (by simp) (by simp [hr0, hr1])
  obtain ⟨p', hp'⟩ := hret [r1, r0] (by simp) (by simp [hr0, hr1])
  refine ⟨[r0, r1], [r1, r0], p, p', List.Perm.swap _ _ _, hp, hp', ?_, ?_⟩
  · have h2 : gpFn (kcov k) (fun _ => 0) 2 ![![0], ![1]] ![1 + 1 / 100 + 1 / 2000, E] (fun _ => 1 / 2000)
        (![![0], ![1]] : Fin 2 → Pt 1) = .ok p := by
      rw [← hp, gpRegress_fn]
      congr 1 <;> funext i <;> fin_cases i <;> rfl
    obtain ⟨A, B, C, hA, hB, hC, hpd, -, hmu, -⟩ := gpFn_inv h2
    have hw : (C + diagonal fun _ => 1 / 2000)⁻¹ *ᵥ ![1 + 1 / 100 + 1 / 2000, E] = ![1, 0] := by
      refine solve2 hpd (funext fun i => ?_)
      fin_cases i <;> simp [mulVec, dotProduct, Fin.sum_univ_two, ent _ _ _ hC, evk, Matrix.add_apply, hE]
    rw [hmu, hw]
    simp [mulVec, dotProduct, Fin.sum_univ_two, ent _ _ _ hB, evk]
  · have h2 : gpFn (kcov k) (fun _ => 0) 2 ![![1], ![0]] ![E, 1 + 1 / 100 + 1 / 2000] (fun _ => 1 / 2000)
        (![![0], ![1]] : Fin 2 → Pt 1) = .ok p' := by
      rw [← hp', gpRegress_fn]
      congr 1 <;> funext i <;> fin_cases i <;> rfl
    obtain ⟨A, B, C, hA, hB, hC, hpd, -, hmu, -⟩ := gpFn_inv h2
    have hw : (C + diagonal fun _ => 1 / 2000)⁻¹ *ᵥ ![E, 1 + 1 / 100 + 1 / 2000] = ![0, 1] := by
      refine solve2 hpd (funext fun i => ?_)
      fin_cases i <;> simp [mulVec, dotProduct, Fin.sum_univ_two, ent _ _ _ hC, evk, Matrix.add_apply, hE]
    rw [hmu, hw]
    simp [mulVec, dotProduct, Fin.sum_univ_two, ent _ _ _ hB, evk]

/-- C115: the targets enter linearly: predictions from a combination of two sets of targets at the same points are
the combination of the predictions (relative to `mean_func`), and the covariance does not depend on the targets. -/
theorem C115_targets {β : Type*} (cov : CovFn d) (mean : Pt d → ℝ) (l : List β) (x : β → Pt d) (s f f' : β → ℝ)
    (a b : ℝ) (X : Fin n → Pt d) {p p' p'' : GPPred n}
    (h : gpRegress cov mean (some (l.map fun b => (x b, f b, s b))) X = .ok p)
    (h' : gpRegress cov mean (some (l.map fun b => (x b, f' b, s b))) X = .ok p')
    (h'' : gpRegress cov mean (some (l.map fun c => (x c, a * f c + b * f' c, s c))) X = .ok p'') :
    p'.cov = p.cov ∧ p''.cov = p.cov ∧ p'.sigma = p.sigma ∧ p''.sigma = p.sigma ∧
      ∀ i, p''.mu i - mean (X i) = a * (p.mu i - mean (X i)) + b * (p'.mu i - mean (X i)) := by
  rw [gpRegress_map] at h h' h''
  obtain ⟨A, B, C, hA, hB, hC, -, hcov, hmu, hsig⟩ := gpFn_inv h
  obtain ⟨A', B', C', hA', hB', hC', -, hcov', hmu', hsig'⟩ := gpFn_inv h'
  obtain ⟨A'', B'', C'', hA'', hB'', hC'', -, hcov'', hmu'', hsig''⟩ := gpFn_inv h''
  rw [hA] at hA' hA''
  rw [hB] at hB' hB''
  rw [hC] at hC' hC''
  obtain rfl := Except.ok.inj hA'
  obtain rfl := Except.ok.inj hB'
  obtain rfl := Except.ok.inj hC'
  obtain rfl := Except.ok.inj hA''
  obtain rfl := Except.ok.inj hB''
  obtain rfl := Except.ok.inj hC''
  have e1 : p'.cov = p.cov := by rw [hcov, hcov']
  have e2 : p''.cov = p.cov := by rw [hcov, hcov'']
  refine ⟨e1, e2, funext fun i => by rw [hsig, hsig', e1], funext fun i => by rw [hsig, hsig'', e2], fun i => ?_⟩
  rw [hmu, hmu', hmu'']
  have : (fun j => a * f (l.get j) + b * f' (l.get j)) = a • (fun j => f (l.get j)) + b • fun j => f' (l.get j) := rfl
  rw [this, mulVec_add, mulVec_add, mulVec_smul, mulVec_smul, mulVec_smul, mulVec_smul, Pi.add_apply, Pi.smul_apply,
    Pi.smul_apply, smul_eq_mul, smul_eq_mul]
  ring

/-- C115: without kernel noise, learning step by step is learning at once. The prediction from old and new data
together is the prediction from the old data alone, at the test points and the new points jointly, conditioned on the
new targets: what matters of the old data is in the means and covariances which `predict` returned before. -/
theorem C115_stepwise (k : KExpr ℝ (Pt d)) (hq : AllLeaves NoNoise k) (mean : Pt d → ℝ)
    (rows new : List (Pt d × ℝ × ℝ)) (X : Fin n → Pt d) {p : GPPred (n + new.length)} {p' : GPPred n}
    (h : gpRegress (kcov k) mean (some rows) (Fin.append X fun j => (new.get j).1) = .ok p)
    (h' : gpRegress (kcov k) mean (gpAdd mean (some rows) new) X = .ok p') :
    let Cxx := p.cov.submatrix (Fin.castAdd new.length) (Fin.castAdd new.length)
    let Cxn := p.cov.submatrix (Fin.castAdd new.length) (Fin.natAdd n)
    let S := p.cov.submatrix (Fin.natAdd n) (Fin.natAdd n) + diagonal fun j => (new.get j).2.2
    S.PosDef ∧ p'.cov = Cxx - Cxn * (S⁻¹ * Cxnᵀ) ∧
      ∀ i, p'.mu i = p.mu (Fin.castAdd new.length i) +
        (Cxn *ᵥ (S⁻¹ *ᵥ fun j => (new.get j).2.1 - p.mu (Fin.natAdd n j))) i := by
  intro Cxx Cxn S
  simp only [gpAdd] at h'
  set rows' := rows ++ new.map fun r : Pt d × ℝ × ℝ => (r.1, r.2.1 - mean r.1, r.2.2) with hrows
  obtain ⟨A, B, C, hA, hB, hC, hpd, hcov, hmu, hsig⟩ := gpRegress_inv h
  obtain ⟨A', B', C', hA', hB', hC', hpd', hcov', hmu', hsig'⟩ := gpRegress_inv h'
  obtain ⟨g, hg⟩ := cov_pointwise k hq
  have hlen : rows.length + new.length = rows'.length := by simp [hrows]
  let e : Fin rows.length ⊕ Fin new.length ≃ Fin rows'.length := finSumFinEquiv.trans (finCongr hlen)
  have hget1 : ∀ j, rows'.get (e (.inl j)) = rows.get j := by
    intro j
    simp only [List.get_eq_getElem, hrows, e]
    exact List.getElem_append_left j.isLt
  have hget2 : ∀ j, rows'.get (e (.inr j)) = ((new.get j).1, (new.get j).2.1 - mean (new.get j).1, (new.get j).2.2) := by
    intro j
    simp only [List.get_eq_getElem, hrows, e]
    simp
  set D := C + diagonal fun j => (rows.get j).2.2 with hD
  set D' := C' + diagonal fun j => (rows'.get j).2.2 with hD'
  let Q : Matrix (Fin rows.length) (Fin new.length) ℝ := Matrix.of fun i j => g (rows.get i).1 (new.get j).1
  let R : Matrix (Fin new.length) (Fin new.length) ℝ :=
    (Matrix.of fun i j => g (new.get i).1 (new.get j).1) + diagonal fun j => (new.get j).2.2
  have hsym : ∀ i j, D' i j = D' j i := fun i j => by
    have := hpd'.isHermitian.apply i j
    simpa using this.symm
  have hDsym : Dᵀ = D := by
    have := hpd.isHermitian.eq
    rwa [conjTranspose_eq_transpose_of_trivial] at this
  have entry : ∀ i j, D' i j = g (rows'.get i).1 (rows'.get j).1 + diagonal (fun j => (rows'.get j).2.2) i j := by
    intro i j
    rw [hD', Matrix.add_apply, hg _ _ _ hC']
  have hQt : ∀ i j, Q j i = g (new.get i).1 (rows.get j).1 := by
    intro i j
    have h1 := entry (e (.inl j)) (e (.inr i))
    have h2 := entry (e (.inr i)) (e (.inl j))
    rw [hget1, hget2, diagonal_apply_ne _ (fun h => by simpa using e.injective h), add_zero] at h1 h2
    simp only [Q, Matrix.of_apply]
    rw [← h2, ← h1]
    exact hsym _ _
  have hblk : D'.submatrix e e = fromBlocks D Q Qᵀ R := by
    ext i j
    rw [submatrix_apply, entry]
    rcases i with i | i <;> rcases j with j | j
    · rw [fromBlocks_apply₁₁, hget1, hget1, hD, Matrix.add_apply, hg _ _ _ hC]
      congr 1
      by_cases hij : i = j
      · subst hij
        rw [diagonal_apply_eq, diagonal_apply_eq, hget1]
      · rw [diagonal_apply_ne _ hij, diagonal_apply_ne _ fun h => hij (by simpa using e.injective h)]
    · rw [fromBlocks_apply₁₂, hget1, hget2, diagonal_apply_ne _ (fun h => by simpa using e.injective h), add_zero]
      rfl
    · rw [fromBlocks_apply₂₁, hget1, hget2, diagonal_apply_ne _ (fun h => by simpa using e.injective h), add_zero,
        transpose_apply, hQt]
    · rw [fromBlocks_apply₂₂, hget2, hget2]
      simp only [R]
      rw [Matrix.add_apply, Matrix.of_apply]
      congr 1
      by_cases hij : i = j
      · subst hij
        rw [diagonal_apply_eq, diagonal_apply_eq, hget2]
      · rw [diagonal_apply_ne _ hij, diagonal_apply_ne _ fun h => hij (by simpa using e.injective h)]
  let Bx : Matrix (Fin n) (Fin rows.length) ℝ := B.submatrix (Fin.castAdd new.length) id
  let Bn : Matrix (Fin n) (Fin new.length) ℝ := Matrix.of fun i j => g (X i) (new.get j).1
  have hBx : B'.submatrix id e = fromCols Bx Bn := by
    ext i j
    rw [submatrix_apply, hg _ _ _ hB']
    rcases j with j | j
    · rw [fromCols_apply_inl, hget1]
      simp only [Bx, submatrix_apply, id]
      rw [hg _ _ _ hB, Fin.append_left]
    · rw [fromCols_apply_inr, hget2]
      rfl
  have hBn : B.submatrix (Fin.natAdd n) id = Qᵀ := by
    ext i j
    rw [submatrix_apply, hg _ _ _ hB, transpose_apply, hQt, Fin.append_right]
    rfl
  have hDu : IsUnit D.det := (isUnit_iff_isUnit_det _).1 hpd.isUnit
  have hS : S = R - Qᵀ * (D⁻¹ * Q) := by
    have e1 : p.cov.submatrix (Fin.natAdd n) (Fin.natAdd n) =
        A.submatrix (Fin.natAdd n) (Fin.natAdd n) - Qᵀ * (D⁻¹ * Q) := by
      rw [hcov, post_submatrix, hBn, transpose_transpose]
    have e2 : A.submatrix (Fin.natAdd n) (Fin.natAdd n) = Matrix.of fun i j => g (new.get i).1 (new.get j).1 := by
      ext i j
      rw [submatrix_apply, hg _ _ _ hA, Fin.append_right, Fin.append_right]
      rfl
    simp only [S, R]
    rw [e1, e2]
    abel
  have hCxn : Cxn = Bn - Bx * (D⁻¹ * Q) := by
    have e2 : A.submatrix (Fin.castAdd new.length) (Fin.natAdd n) = Bn := by
      ext i j
      rw [submatrix_apply, hg _ _ _ hA, Fin.append_left, Fin.append_right]
      rfl
    simp only [Cxn]
    rw [hcov, post_submatrix, hBn, transpose_transpose, e2]
  have hCxx : Cxx = A' - Bx * (D⁻¹ * Bxᵀ) := by
    have e2 : A.submatrix (Fin.castAdd new.length) (Fin.castAdd new.length) = A' := by
      ext i j
      rw [submatrix_apply, hg _ _ _ hA, hg _ _ _ hA', Fin.append_left, Fin.append_left]
    simp only [Cxx]
    rw [hcov, post_submatrix, e2]
  have hpdb : (fromBlocks D Q Qᵀ R).PosDef := by
    rw [← hblk]
    exact hpd'.submatrix e.injective
  have hSu : IsUnit S.det := by
    have hM : IsUnit (fromBlocks D Q Qᵀ R).det := (isUnit_iff_isUnit_det _).1 hpdb.isUnit
    have : Invertible D := D.invertibleOfIsUnitDet hDu
    rw [det_fromBlocks₁₁, invOf_eq_nonsing_inv, Matrix.mul_assoc, ← hS] at hM
    exact isUnit_of_mul_isUnit_right hM
  have hSpd : S.PosDef := by
    have : Invertible D := D.invertibleOfIsUnitDet hDu
    have h1 := hpdb.posSemidef
    rw [← conjTranspose_eq_transpose_of_trivial, PosDef.fromBlocks₁₁ _ _ hpd, conjTranspose_eq_transpose_of_trivial,
      Matrix.mul_assoc, ← hS] at h1
    exact h1.posDef_iff_isUnit.2 ((isUnit_iff_isUnit_det _).2 hSu)
  have hDi : (D⁻¹)ᵀ = D⁻¹ := by rw [transpose_nonsing_inv, hDsym]
  have e1 : (D'.submatrix e e)⁻¹ = D'⁻¹.submatrix e e := inv_submatrix_equiv D' e e
  have hSu' : IsUnit (R - Qᵀ * (D⁻¹ * Q)).det := by rwa [← hS]
  refine ⟨hSpd, ?_, fun i => ?_⟩
  · have e2 : B' * (D'⁻¹ * B'ᵀ) = fromCols Bx Bn * ((fromBlocks D Q Qᵀ R)⁻¹ * fromRows Bxᵀ Bnᵀ) := by
      rw [← transpose_fromCols, ← hBx, ← hblk, e1, transpose_submatrix, submatrix_mul_equiv, submatrix_mul_equiv,
        submatrix_id_id]
    rw [hcov', e2, block_update hDu hSu', hCxx, ← hS, ← hCxn]
    have e3 : Cxnᵀ = Bnᵀ - Qᵀ * (D⁻¹ * Bxᵀ) := by
      rw [hCxn, transpose_sub, transpose_mul, transpose_mul, hDi, Matrix.mul_assoc]
    rw [e3, sub_sub]
  · have e2 : B' * (D'⁻¹ * replicateCol Unit fun j => (rows'.get j).2.1) =
        fromCols Bx Bn * ((fromBlocks D Q Qᵀ R)⁻¹ * fromRows (replicateCol Unit fun j => (rows.get j).2.1)
          (replicateCol Unit fun j => (new.get j).2.1 - mean (new.get j).1)) := by
      have e4 : (fromRows (replicateCol Unit fun j => (rows.get j).2.1)
          (replicateCol Unit fun j => (new.get j).2.1 - mean (new.get j).1)) =
          (replicateCol Unit fun j => (rows'.get j).2.1).submatrix e id := by
        ext j u
        rcases j with j | j
        · rw [fromRows_apply_inl, submatrix_apply, replicateCol_apply, replicateCol_apply, hget1]
        · rw [fromRows_apply_inr, submatrix_apply, replicateCol_apply, replicateCol_apply, hget2]
      rw [e4, ← hBx, ← hblk, e1, submatrix_mul_equiv, submatrix_mul_equiv, submatrix_id_id]
    rw [block_update hDu hSu', ← hS, ← hCxn] at e2
    have e5 := congrFun (congrFun e2 i) ()
    have e6 : (replicateCol Unit fun j => (new.get j).2.1 - mean (new.get j).1) -
        Qᵀ * (D⁻¹ * replicateCol Unit fun j => (rows.get j).2.1) =
        replicateCol Unit fun j => (new.get j).2.1 - p.mu (Fin.natAdd n j) := by
      ext j u
      rw [← replicateCol_mulVec, ← replicateCol_mulVec, Matrix.sub_apply, replicateCol_apply, replicateCol_apply,
        replicateCol_apply, hmu, Fin.append_right, ← hBn]
      simp only [mulVec, dotProduct, submatrix_apply, id]
      ring
    rw [e6, Matrix.add_apply, ← replicateCol_mulVec, ← replicateCol_mulVec, ← replicateCol_mulVec,
      ← replicateCol_mulVec, ← replicateCol_mulVec, ← replicateCol_mulVec, replicateCol_apply, replicateCol_apply,
      replicateCol_apply] at e5
    rw [hmu', e5, hmu, Fin.append_left]
    simp only [Bx, mulVec, dotProduct, submatrix_apply, id]
    ring

/-- C115: without kernel noise, two measurements at the same point count as one: their average weighted with the
inverse noises, with the inverse noises added up. -/
theorem C115_repeated (k : KExpr ℝ (Pt d)) (hq : AllLeaves NoNoise k) (mean : Pt d → ℝ) (x : Pt d) (y₁ y₂ : ℝ)
    {s₁ s₂ : ℝ} (h1 : 0 < s₁) (h2 : 0 < s₂) (rest : List (Pt d × ℝ × ℝ)) (X : Fin n → Pt d) {p p' : GPPred n}
    (h : gpRegress (kcov k) mean (some ((x, y₁, s₁) :: (x, y₂, s₂) :: rest)) X = .ok p)
    (h' : gpRegress (kcov k) mean (some ((x, (y₁ / s₁ + y₂ / s₂) / (1 / s₁ + 1 / s₂), 1 / (1 / s₁ + 1 / s₂)) :: rest)) X =
      .ok p') :
    p = p' := by
  set r : Pt d × ℝ × ℝ := (x, (y₁ / s₁ + y₂ / s₂) / (1 / s₁ + 1 / s₂), 1 / (1 / s₁ + 1 / s₂)) with hr
  obtain ⟨A, B, C, hA, hB, hC, hpd, hcov, hmu, hsig⟩ := gpRegress_inv h
  obtain ⟨A', B', C', hA', hB', hC', hpd', hcov', hmu', hsig'⟩ := gpRegress_inv h'
  obtain ⟨g, hg⟩ := cov_pointwise k hq
  rw [hA] at hA'
  obtain rfl := Except.ok.inj hA'
  let π : Fin (rest.length + 2) → Fin (rest.length + 1) := Fin.cases 0 id
  let w : Fin (rest.length + 2) → ℝ := Fin.cases (s₂ / (s₁ + s₂)) (Fin.cases (s₁ / (s₁ + s₂)) fun _ => 1)
  have hpt : ∀ i : Fin (rest.length + 2), (((x, y₁, s₁) :: (x, y₂, s₂) :: rest).get i).1 = ((r :: rest).get (π i)).1 := by
    refine Fin.cases rfl (Fin.cases rfl fun i => rfl)
  have hss : s₁ + s₂ ≠ 0 := (add_pos h1 h2).ne'
  let yy : Fin (rest.length + 2) → ℝ := Fin.cases y₁ (Fin.cases y₂ fun i => (rest.get i).2.1)
  let zz : Fin (rest.length + 2) → ℝ := Fin.cases s₁ (Fin.cases s₂ fun i => (rest.get i).2.2)
  have hyy : (fun j => (((x, y₁, s₁) :: (x, y₂, s₂) :: rest).get j).2.1) = yy :=
    funext (Fin.cases rfl (Fin.cases rfl fun i => rfl))
  have hzz : (fun j => (((x, y₁, s₁) :: (x, y₂, s₂) :: rest).get j).2.2) = zz :=
    funext (Fin.cases rfl (Fin.cases rfl fun i => rfl))
  have hw : ∀ j : Fin (rest.length + 1), ∑ i : Fin (rest.length + 2), (if π i = j then w i else 0) = 1 := by
    intro j
    rw [Fin.sum_univ_succ, Fin.sum_univ_succ]
    refine Fin.cases ?_ (fun j => ?_) j
    · simp [-Fin.succ_zero_eq_one, -Fin.succ_zero_eq_one', π, w, Fin.succ_ne_zero]
      field_simp
      ring
    · simp [-Fin.succ_zero_eq_one, -Fin.succ_zero_eq_one', π, w, Fin.succ_inj, (Fin.succ_ne_zero _).symm]
  have hs : ∀ i : Fin (rest.length + 2), zz i * w i = ((r :: rest).get (π i)).2.2 := by
    refine Fin.cases ?_ (Fin.cases ?_ fun i => ?_)
    · simp [-Fin.succ_zero_eq_one, -Fin.succ_zero_eq_one', π, w, zz, hr]
      field_simp
      try ring
    · simp [-Fin.succ_zero_eq_one, -Fin.succ_zero_eq_one', π, w, zz, hr]
      field_simp
      try ring
    · simp [-Fin.succ_zero_eq_one, -Fin.succ_zero_eq_one', π, w, zz]
  have hy : ∀ j : Fin (rest.length + 1), ((r :: rest).get j).2.1 =
      ∑ i : Fin (rest.length + 2), if π i = j then w i * yy i else 0 := by
    intro j
    rw [Fin.sum_univ_succ, Fin.sum_univ_succ]
    refine Fin.cases ?_ (fun j => ?_) j
    · simp [-Fin.succ_zero_eq_one, -Fin.succ_zero_eq_one', π, w, yy, hr, Fin.succ_ne_zero]
      field_simp
      try ring
    · simp [-Fin.succ_zero_eq_one, -Fin.succ_zero_eq_one', π, w, yy, Fin.succ_inj, (Fin.succ_ne_zero _).symm]
  have key := gp_merge (C := C') (C' := C) (B := B') (B' := B) (π := π) (w := w)
    (s' := fun j => (((x, y₁, s₁) :: (x, y₂, s₂) :: rest).get j).2.2) (s := fun j => ((r :: rest).get j).2.2)
    (y' := fun j => (((x, y₁, s₁) :: (x, y₂, s₂) :: rest).get j).2.1) (y := fun j => ((r :: rest).get j).2.1)
    (by
      ext i j
      rw [submatrix_apply, hg _ _ _ hC, hg _ _ _ hC', hpt, hpt])
    (by
      ext i j
      rw [submatrix_apply, hg _ _ _ hB, hg _ _ _ hB', hpt]
      rfl)
    hw (fun i => (congrArg (· * w i) (congrFun hzz i)).trans (hs i)) (fun j => (hy j).trans (by rw [← hyy]; rfl))
    hpd hpd'
  have ec : p.cov = p'.cov := by
    rw [hcov, hcov']
    exact congrArg (A - ·) key.1
  have em : p.mu = p'.mu := by
    funext i
    rw [hmu, hmu']
    exact congrArg (· + mean (X i)) (congrFun key.2 i)
  have es : p.sigma = p'.sigma := by
    funext i
    rw [hsig, hsig', ec]
  cases p
  cases p'
  simp only at ec em es
  rw [ec, em, es]

/-- A kernel without noise and data for which every hypothesis of this file holds. -/
theorem quietRbf_returns (rows : List (Pt 1 × ℝ × ℝ)) (hne : rows ≠ []) (hs : ∀ r ∈ rows, 0 < r.2.2) {m : Nat}
    (hm : 0 < m) (X : Fin m → Pt 1) :
    ∃ p, gpRegress (kcov (.leaf (.rbf 1 1 0))) (fun u => u 0) (some rows) X = .ok p :=
  C43_returns _ (by simp [AllLeaves, LeafOK]) (by simp [AllLeaves, QuietIfZeroed]) _ rows hne hs X hm

/-- The hypotheses of `C115_order`: two different orders, both of which `predict` accepts. -/
example : ∃ p : GPPred 2,
    gpRegress (kcov (.leaf (.rbf 1 1 0))) (fun u => u 0) (some [(![1], 2, 1), (![0], 3, 1 / 2)]) ![![0], ![5]] = .ok p ∧
    gpRegress (kcov (.leaf (.rbf 1 1 0))) (fun u => u 0) (some [(![0], 3, 1 / 2), (![1], 2, 1)]) ![![0], ![5]] = .ok p := by
  obtain ⟨p, hp⟩ := quietRbf_returns [(![1], 2, 1), (![0], 3, 1 / 2)] (by simp) (by simp) (m := 2) (by norm_num)
    ![![0], ![5]]
  refine ⟨p, hp, ?_⟩
  rw [← hp]
  exact C115_order _ (by simp [AllLeaves, NoNoise, noiseOf]) _ (List.Perm.swap _ _ _) _ (by norm_num)

/-- The hypotheses of `C115_targets`. -/
example : ∃ p p' p'' : GPPred 1,
    gpRegress (kcov (.leaf (.rbf 1 1 0))) (fun u => u 0)
      (some ([0, 1].map fun b : ℝ => (![b], b + 1, 1))) ![![7]] = .ok p ∧
    gpRegress (kcov (.leaf (.rbf 1 1 0))) (fun u => u 0)
      (some ([0, 1].map fun b : ℝ => (![b], b * b, 1))) ![![7]] = .ok p' ∧
    gpRegress (kcov (.leaf (.rbf 1 1 0))) (fun u => u 0)
      (some ([0, 1].map fun b : ℝ => (![b], 2 * (b + 1) + 3 * (b * b), 1))) ![![7]] = .ok p'' := by
  obtain ⟨p, hp⟩ := quietRbf_returns ([0, 1].map fun b : ℝ => (![b], b + 1, 1)) (by simp) (by simp) (m := 1)
    (by norm_num) ![![7]]
  obtain ⟨p', hp'⟩ := quietRbf_returns ([0, 1].map fun b : ℝ => (![b], b * b, 1)) (by simp) (by simp) (m := 1)
    (by norm_num) ![![7]]
  obtain ⟨p'', hp''⟩ := quietRbf_returns ([0, 1].map fun b : ℝ => (![b], 2 * (b + 1) + 3 * (b * b), 1)) (by simp)
    (by simp) (m := 1) (by norm_num) ![![7]]
  exact ⟨p, p', p'', hp, hp', hp''⟩

/-- The hypotheses of `C115_stepwise`: one old row, one new one at the same place. -/
example : ∃ (p : GPPred (1 + 1)) (p' : GPPred 1),
    gpRegress (kcov (.leaf (.rbf 1 1 0))) (fun u => u 0) (some [(![1], 2, 1)])
      (Fin.append ![![0]] fun j => ([(![1], 3, 1 / 2)] : List (Pt 1 × ℝ × ℝ)).get j |>.1) = .ok p ∧
    gpRegress (kcov (.leaf (.rbf 1 1 0))) (fun u => u 0)
      (gpAdd (fun u => u 0) (some [(![1], 2, 1)]) [(![1], 3, 1 / 2)]) ![![0]] = .ok p' := by
  obtain ⟨p, hp⟩ := quietRbf_returns [(![1], 2, 1)] (by simp) (by simp) (m := 1 + 1) (by norm_num)
    (Fin.append ![![0]] fun j => ([(![1], 3, 1 / 2)] : List (Pt 1 × ℝ × ℝ)).get j |>.1)
  obtain ⟨p', hp'⟩ := quietRbf_returns ([(![1], 2, 1), (![1], 3 - 1, 1 / 2)]) (by simp) (by simp)
    (m := 1) (by norm_num) ![![0]]
  exact ⟨p, p', hp, by simpa [gpAdd] using hp'⟩

/-- The hypotheses of `C115_repeated`. -/
example : ∃ p p' : GPPred 1,
    gpRegress (kcov (.leaf (.rbf 1 1 0))) (fun u => u 0) (some ((![1], 2, 1) :: (![1], 5, 1 / 2) :: [(![0], 1, 1)]))
      ![![0]] = .ok p ∧
    gpRegress (kcov (.leaf (.rbf 1 1 0))) (fun u => u 0)
      (some ((![1], (2 / 1 + 5 / (1 / 2)) / (1 / 1 + 1 / (1 / 2)), 1 / (1 / 1 + 1 / (1 / 2))) :: [(![0], 1, 1)]))
      ![![0]] = .ok p' := by
  obtain ⟨p, hp⟩ := quietRbf_returns ((![1], 2, 1) :: (![1], 5, 1 / 2) :: [(![0], 1, 1)]) (by simp) (by simp)
    (m := 1) (by norm_num) ![![0]]
  obtain ⟨p', hp'⟩ := quietRbf_returns
    ((![1], (2 / 1 + 5 / (1 / 2)) / (1 / 1 + 1 / (1 / 2)), 1 / (1 / 1 + 1 / (1 / 2))) :: [(![0], 1, 1)]) (by simp)
    (by intro r hr; fin_cases hr <;> norm_num) (m := 1) (by norm_num) ![![0]]
  exact ⟨p, p', hp, hp'⟩

end Lop.Props
