import Verif.Proofs.FarAway
import Verif.Proofs.CovPSD

/-! # C131: far away from the data the predictions are those of the prior -/

namespace Lop.Props

open Spec Matrix

variable {d n m : Nat}

/-- C131 for `GP`: with a decaying kernel, whatever measurements are stored, far enough out mean, variance and covariance are those of the prior up to `eps`. (A model without measurements returns the mean 0 instead of `mean_func`.) -/
theorem C131_gp (k : KExpr ℝ (Pt d)) (hk : Decaying k) (mean : Pt d → ℝ) (rows : List (Pt d × ℝ × ℝ)) {C}
    (hC : k.cov (fun j : Fin rows.length => (rows.get j).1) (fun j : Fin rows.length => (rows.get j).1) = .ok C)
    (hpd : (C + diagonal fun j : Fin rows.length => (rows.get j).2.2).PosDef) {eps : ℝ} (he : 0 < eps) :
    ∃ R, ∀ {n : Nat} (X : Fin n → Pt d), 0 < n → FarOut R X →
      ∃ p A, gpRegress (kcov k) mean (some rows) X = .ok p ∧ k.cov X X = .ok A ∧
        gpRegress (kcov k) mean none X = .ok ⟨fun _ => 0, fun i => max 0 (A i i), A⟩ ∧ NearPrior eps (fun i => mean (X i)) A p := by
  set M := (C + diagonal fun j : Fin rows.length => (rows.get j).2.2)⁻¹ with hM
  set a : Fin rows.length → ℝ := M *ᵥ fun j => (rows.get j).2.1 with ha
  obtain ⟨delta, hd, h1, h2⟩ := exists_delta (a := ∑ j, |a j|) (b := ∑ i, ∑ j, |M i j|) (Finset.sum_nonneg fun _ _ => abs_nonneg _)
    (Finset.sum_nonneg fun _ _ => Finset.sum_nonneg fun _ _ => abs_nonneg _) he
  obtain ⟨R, hR⟩ := decaying_cov k hk (fun j : Fin rows.length => (rows.get j).1) hd
  refine ⟨R, fun {n} X hn hX => ?_⟩
  obtain ⟨A, hA⟩ := cov_returns k X X hn
  obtain ⟨B, hB⟩ := cov_returns k X (fun j : Fin rows.length => (rows.get j).1) hn
  have hp := gpRegress_eq (cov := kcov k) mean (rows := rows) hA hB hC
  rw [if_pos hpd] at hp
  refine ⟨_, A, hp, hA, ?_, nearPrior_of_small hd.le (hR X hX B hB) h1 h2 (fun i => rfl) rfl fun i => rfl⟩
  simp only [gpRegress, kcov, hA]

/-- C131 for `PreferenceGP`, whatever the fit: far enough out the mean is 0 and the covariance is that of the kernel, up to `eps`. -/
theorem C131_preferences (k : KExpr ℝ (Pt d)) (hk : Decaying k) (Y : Fin m → Pt d) {K W : Matrix (Fin m) (Fin m) ℝ} (hK : K.PosDef)
    (F : Fin m → ℝ) {invert : Matrix (Fin m) (Fin m) ℝ → Option (Matrix (Fin m) (Fin m) ℝ)} {tmp} (hinv : invert (1 + W * K) = some tmp)
    {eps : ℝ} (he : 0 < eps) :
    ∃ R, ∀ {n : Nat} (X : Fin n → Pt d), 0 < n → FarOut R X →
      ∃ p A, prefGpPredict (kcov k) Y K W F invert X = .ok p ∧ k.cov X X = .ok A ∧ NearPrior eps (fun _ => 0) A p := by
  obtain ⟨delta, hd, h1, h2⟩ := exists_delta (a := ∑ j, |(K⁻¹ *ᵥ F) j|) (b := ∑ i, ∑ j, |(tmp * W) i j|) (Finset.sum_nonneg fun _ _ => abs_nonneg _)
    (Finset.sum_nonneg fun _ _ => Finset.sum_nonneg fun _ _ => abs_nonneg _) he
  obtain ⟨R, hR⟩ := decaying_cov k hk Y hd
  refine ⟨R, fun {n} X hn hX => ?_⟩
  obtain ⟨A, hA⟩ := cov_returns k X X hn
  obtain ⟨B, hB⟩ := cov_returns k X Y hn
  have hp : prefGpPredict (kcov k) Y K W F invert X = .ok ⟨B *ᵥ (K⁻¹ *ᵥ F), fun i => max 0 ((A - (B * tmp) * (W * Bᵀ)) i i), A - (B * tmp) * (W * Bᵀ)⟩ := by
    simp only [prefGpPredict, kcov, hA, hB, Bind.bind, Except.bind, laplacePredict, if_pos hK, hinv]
  refine ⟨_, A, hp, hA, nearPrior_of_small hd.le (hR X hX B hB) h1 h2 (fun i => (add_zero _).symm) ?_ fun i => rfl⟩
  simp only [Matrix.mul_assoc]

/-- C131, the variance of the prior of `RBF_kern`: `sigma²`, plus the noise of the kernel. -/
theorem C131_rbf_prior (s l noise : ℝ) (X : Fin n → Pt d) (hn : 0 < n) :
    ∃ A, (KExpr.leaf (.rbf s l noise)).cov X X = .ok A ∧ ∀ i, A i i = s ^ 2 + noise := by
  refine ⟨_, rbfCov_ok (by omega), fun i => ?_⟩
  have h1 : noiseTerm noise X X i i = noise := by
    simp [noiseTerm, hn]
  simp [h1, rbfEval, sqDist]
  ring

/-- C131, rate for `RBF_kern`: at squared distance at least `D` from `N` measurements with noise, that of the kernel included, of at least `s0`, the mean
differs from `mean_func` by at most `kappa √N ‖y‖ / s0` and the variance from that of the prior by at most `N kappa² / s0`, where
`kappa = sigma² exp(-D/(2 l²))`. -/
theorem C131_rate (s : ℝ) {l noise : ℝ} (hl : l ≠ 0) (hnoise : 0 ≤ noise) (mean : Pt d → ℝ) (rows : List (Pt d × ℝ × ℝ)) (hne : rows ≠ [])
    {s0 : ℝ} (h0 : 0 < s0) (hs : ∀ r ∈ rows, s0 ≤ noise + r.2.2) {D : ℝ} (hD : 0 < D) (X : Fin n → Pt d) (hn : 0 < n)
    (hX : ∀ i, ∀ r ∈ rows, D ≤ sqDist (X i) r.1) :
    ∃ p, gpRegress (kcov (.leaf (.rbf s l noise))) mean (some rows) X = .ok p ∧ ∀ i,
      |p.mu i - mean (X i)| ≤ s ^ 2 * Real.exp (-D / (2 * l * l)) * Real.sqrt rows.length *
        Real.sqrt (rows.map fun r => r.2.1 ^ 2).sum / s0 ∧
      p.sigma i ≤ s ^ 2 + noise ∧ s ^ 2 + noise - rows.length * (s ^ 2 * Real.exp (-D / (2 * l * l))) ^ 2 / s0 ≤ p.sigma i := by
  set Y : Fin rows.length → Pt d := fun j => (rows.get j).1 with hY
  have hm : 0 < rows.length := List.length_pos_iff.2 hne
  set kap := s ^ 2 * Real.exp (-D / (2 * l * l)) with hkap
  have hkap0 : 0 ≤ kap := by positivity
  have hl2 : 0 < 2 * l * l := by
    have := mul_self_pos.2 hl
    linarith
  obtain ⟨A, hA, hAd⟩ := C131_rbf_prior s l noise X hn
  have hfar : ∀ i j, D ≤ sqDist (X i) (Y j) := fun i j => hX i _ (List.get_mem _ _)
  have hap : ∀ i j, X i ≠ Y j := fun i j hij => by
    have := hfar i j
    rw [hij] at this
    simp [sqDist] at this
    linarith
  have hB : (KExpr.leaf (.rbf s l noise)).cov X Y = .ok (Matrix.of fun i j => rbfEval s l (X i) (Y j) + noiseTerm noise X Y i j) := rbfCov_ok (by omega)
  have hC : (KExpr.leaf (.rbf s l noise)).cov Y Y = .ok (Matrix.of fun i j => rbfEval s l (Y i) (Y j) + noiseTerm noise Y Y i j) := rbfCov_ok (by omega)
  set B : Matrix (Fin n) (Fin rows.length) ℝ := Matrix.of fun i j => rbfEval s l (X i) (Y j) + noiseTerm noise X Y i j with hBdef
  set C : Matrix (Fin rows.length) (Fin rows.length) ℝ := Matrix.of fun i j => rbfEval s l (Y i) (Y j) + noiseTerm noise Y Y i j with hCdef
  have hBs : ∀ i j, |B i j| ≤ kap := fun i j => by
    simp only [hBdef, Matrix.of_apply, noiseTerm_apart noise hap, add_zero, rbfEval]
    rw [abs_of_nonneg (by have := mul_self_nonneg s; positivity), hkap, ← pow_two]
    refine mul_le_mul_of_nonneg_left (Real.exp_le_exp.2 ?_) (sq_nonneg _)
    exact div_le_div_of_nonneg_right (neg_le_neg (hfar i j)) hl2.le
  set M := C + diagonal (fun j : Fin rows.length => (rows.get j).2.2) with hM
  have hG : (Matrix.of fun i j => rbfEval s l (Y i) (Y j) : Matrix (Fin rows.length) (Fin rows.length) ℝ).PosSemidef := psd_rbf s l Y
  have hMe : M = (Matrix.of fun i j => rbfEval s l (Y i) (Y j) : Matrix (Fin rows.length) (Fin rows.length) ℝ) +
      diagonal (fun j : Fin rows.length => noise + (rows.get j).2.2) := by
    ext i j
    by_cases hij : i = j
    · subst hij
      simp [hM, hCdef, noiseTerm, hm]
      ring
    · simp [hM, hCdef, noiseTerm, hij, Fin.val_inj]
  have hpd : M.PosDef := by
    rw [hMe, add_comm]
    exact (Matrix.posDef_diagonal_iff.2 fun j => h0.trans_le (hs _ (List.get_mem _ _))).add_posSemidef hG
  have hlow : ∀ x : Fin rows.length → ℝ, s0 * (x ⬝ᵥ x) ≤ x ⬝ᵥ (M *ᵥ x) := fun x => by
    rw [hMe, Matrix.add_mulVec, dotProduct_add]
    have h1 : 0 ≤ x ⬝ᵥ ((Matrix.of fun i j => rbfEval s l (Y i) (Y j) : Matrix (Fin rows.length) (Fin rows.length) ℝ) *ᵥ x) := by
      simpa using hG.dotProduct_mulVec_nonneg x
    have h2 : s0 * (x ⬝ᵥ x) ≤ x ⬝ᵥ (diagonal (fun j : Fin rows.length => noise + (rows.get j).2.2) *ᵥ x) := by
      simp only [dotProduct, mulVec_diagonal, Finset.mul_sum]
      exact Finset.sum_le_sum fun j _ => by
        have := hs _ (List.get_mem rows j)
        nlinarith [mul_self_nonneg (x j)]
    linarith
  have hbb : ∀ i, (B i) ⬝ᵥ (B i) ≤ rows.length * kap ^ 2 := fun i => by
    simp only [dotProduct]
    refine (Finset.sum_le_card_nsmul _ _ (kap ^ 2) fun j _ => ?_).trans (by simp)
    have := sq_le_sq' (abs_le.1 (hBs i j)).1 (abs_le.1 (hBs i j)).2
    linarith [pow_two (B i j)]
  have hsb : ∀ i, Real.sqrt (B i ⬝ᵥ B i) ≤ kap * Real.sqrt rows.length := fun i => by
    refine (Real.sqrt_le_sqrt (hbb i)).trans ?_
    rw [mul_comm (rows.length : ℝ), Real.sqrt_mul (sq_nonneg _), Real.sqrt_sq hkap0]
  have hp := gpRegress_eq (cov := kcov (.leaf (.rbf s l noise))) mean (rows := rows) hA hB hC
  rw [if_pos hpd] at hp
  refine ⟨_, hp, fun i => ?_⟩
  have hq : 0 ≤ B i ⬝ᵥ (M⁻¹ *ᵥ B i) := by simpa using hpd.inv.posSemidef.dotProduct_mulVec_nonneg (B i)
  have hq2 : B i ⬝ᵥ (M⁻¹ *ᵥ B i) ≤ rows.length * kap ^ 2 / s0 := by
    refine (le_abs_self _).trans ((inv_products hpd h0 hlow (B i) (B i)).trans ?_)
    refine div_le_div_of_nonneg_right ?_ h0.le
    rw [Real.mul_self_sqrt (by simpa using dotProduct_star_self_nonneg (B i))]
    exact hbb i
  have hcov : (A - B * (M⁻¹ * Bᵀ)) i i = s ^ 2 + noise - B i ⬝ᵥ (M⁻¹ *ᵥ B i) := by
    rw [Matrix.sub_apply, hAd]
    rfl
  refine ⟨?_, ?_, ?_⟩
  · simp only [add_sub_cancel_right]
    refine (inv_products hpd h0 hlow (B i) _).trans (div_le_div_of_nonneg_right ?_ h0.le)
    have e : (fun j : Fin rows.length => (rows.get j).2.1) ⬝ᵥ (fun j : Fin rows.length => (rows.get j).2.1) = (rows.map fun r => r.2.1 ^ 2).sum := by
      simp only [dotProduct]
      rw [← List.sum_ofFn]
      congr 1
      refine List.ext_getElem (by simp) fun j h1 h2 => ?_
      simp [pow_two]
    rw [e]
    exact mul_le_mul_of_nonneg_right (hsb i) (Real.sqrt_nonneg _)
  · simp only [hcov]
    exact max_le (by positivity) (by linarith)
  · simp only [hcov]
    exact le_max_of_le_right (by linarith)

theorem one_row {cov : CovFn d} {x y : Pt d} {v s : ℝ} {A B C : Matrix (Fin 1) (Fin 1) ℝ} (hA : cov 1 1 (fun _ => x) (fun _ => x) = .ok A)
    (hB : cov 1 1 (fun _ => x) (fun _ => y) = .ok B) (hC : cov 1 1 (fun _ => y) (fun _ => y) = .ok C) (hs : 0 < C 0 0 + s) :
    ∃ p, gpRegress cov (fun _ => 0) (gpAdd (fun _ => 0) none [(y, v, s)]) (fun _ : Fin 1 => x) = .ok p ∧
      p.mu 0 = B 0 0 * v / (C 0 0 + s) ∧ p.sigma 0 = max 0 (A 0 0 - B 0 0 * B 0 0 / (C 0 0 + s)) := by
  have hst : gpAdd (fun _ => 0) none [(y, v, s)] = some [(y, v, s)] := by simp [gpAdd]
  have e1 : (fun j : Fin [(y, v, s)].length => ([(y, v, s)].get j).1) = fun _ => y := by
    ext j
    have : j = 0 := Subsingleton.elim (α := Fin 1) _ _
    subst this
    rfl
  have hp := gpRegress_eq (cov := cov) (fun _ => 0) (rows := [(y, v, s)]) (X := fun _ : Fin 1 => x) (A := A) (B := B) (C := C) hA
    (by rw [e1]; exact hB) (by rw [e1]; exact hC)
  have e2 : C + diagonal (fun j : Fin [(y, v, s)].length => ([(y, v, s)].get j).2.2) = diagonal fun _ : Fin 1 => C 0 0 + s := by
    ext i j
    have h1 : i = 0 := Subsingleton.elim (α := Fin 1) _ _
    have h2 : j = 0 := Subsingleton.elim (α := Fin 1) _ _
    subst h1 h2
    simp
  have e3 : (fun j : Fin [(y, v, s)].length => ([(y, v, s)].get j).2.1) = fun _ => v := by
    ext j
    have : j = 0 := Subsingleton.elim (α := Fin 1) _ _
    subst this
    rfl
  have hpd : (diagonal fun _ : Fin 1 => C 0 0 + s).PosDef := Matrix.posDef_diagonal_iff.2 fun _ => hs
  have e4 : (diagonal fun _ : Fin 1 => C 0 0 + s)⁻¹ = diagonal fun _ : Fin 1 => (C 0 0 + s)⁻¹ :=
    Matrix.inv_eq_left_inv (by rw [diagonal_mul_diagonal]; simp [hs.ne'])
  rw [if_pos (e2 ▸ hpd), e3] at hp
  simp only [e2] at hp
  refine ⟨_, by rw [hst]; exact hp, ?_, ?_⟩
  · simp only [e4, add_zero]
    simp [mulVec, dotProduct, diagonal]
    field_simp
  · simp only [e4]
    simp [Matrix.mul_apply, diagonal]
    congr 1
    field_simp

/-- C131 is false for the linear kernel: after one measurement the means grow without bound. -/
theorem C131_linear_false (R : ℝ) : ∃ (x : Pt 1) (p : GPPred 1), FarOut R (fun _ : Fin 1 => x) ∧
    gpRegress (kcov (.leaf (.linear 1 0 0))) (fun _ => 0) (gpAdd (fun _ => 0) none [(![1], 1, 1)]) (fun _ => x) = .ok p ∧ R ≤ p.mu 0 := by
  obtain ⟨p, hp, hmu, -⟩ := one_row (cov := kcov (.leaf (.linear 1 0 0))) (x := ![2 * (1 + |R|)]) (y := ![1]) (v := 1) (s := 1) rfl rfl rfl
    (by simp)
  refine ⟨_, p, fun i => ?_, hp, ?_⟩
  · simp
    nlinarith [le_abs_self R, abs_nonneg R]
  · rw [hmu]
    simp
    linarith [le_abs_self R]

/-- C131 is false for the periodic kernel: every full period away from the only measurement the mean is half the measured value. -/
theorem C131_periodic_false (R : ℝ) : ∃ (x : Pt 1) (p : GPPred 1), FarOut R (fun _ : Fin 1 => x) ∧
    gpRegress (kcov (.leaf (.periodic 1 1 1))) (fun _ => 0) (gpAdd (fun _ => 0) none [(![0], 1, 1)]) (fun _ => x) = .ok p ∧ p.mu 0 = 1 / 2 := by
  obtain ⟨N, hN⟩ := exists_nat_ge R
  obtain ⟨p, hp, hmu, -⟩ := one_row (cov := kcov (.leaf (.periodic 1 1 1))) (x := ![(N : ℝ) + 1]) (y := ![0]) (v := 1) (s := 1) rfl rfl rfl
    (by simp [perExp, l1Dist])
  refine ⟨_, p, fun i => ?_, hp, ?_⟩
  · simp
    nlinarith [Nat.cast_nonneg (α := ℝ) N]
  · rw [hmu]
    have h : Real.sin (Real.pi * |(N : ℝ) + 1|) = 0 := by
      rw [abs_of_nonneg (by positivity), mul_comm]
      exact_mod_cast Real.sin_nat_mul_pi (N + 1)
    simp [perExp, l1Dist, h]
    norm_num

/-- Non-trivial instances: the product of an RBF kernel with a periodic one, plus a zeroed RBF kernel, decays; one measurement is a regular fit. -/
example : Decaying (.dual .add (.dual .mul (.leaf (.rbf 1 2 (1 / 100))) (.leaf (.periodic 1 1 1))) (.leaf (.zeroed 1 1 none 0)) : KExpr ℝ (Pt 2)) :=
  ⟨.inl ⟨two_ne_zero, trivial⟩, one_ne_zero⟩

example : ∃ C, (KExpr.leaf (.rbf 1 1 (1 / 100)) : KExpr ℝ (Pt 1)).cov (fun j : Fin [((![0] : Pt 1), (1 : ℝ), (1 : ℝ))].length => ([((![0] : Pt 1), (1 : ℝ), (1 : ℝ))].get j).1)
    (fun j : Fin [((![0] : Pt 1), (1 : ℝ), (1 : ℝ))].length => ([((![0] : Pt 1), (1 : ℝ), (1 : ℝ))].get j).1) = .ok C ∧
    (C + diagonal fun j : Fin [((![0] : Pt 1), (1 : ℝ), (1 : ℝ))].length => ([((![0] : Pt 1), (1 : ℝ), (1 : ℝ))].get j).2.2).PosDef := by
  obtain ⟨C, hC, h⟩ := C131_rbf_prior 1 1 (1 / 100) (fun j : Fin [((![0] : Pt 1), (1 : ℝ), (1 : ℝ))].length => ([((![0] : Pt 1), (1 : ℝ), (1 : ℝ))].get j).1) (by simp)
  refine ⟨C, hC, ?_⟩
  have e : (C + diagonal fun j : Fin [((![0] : Pt 1), (1 : ℝ), (1 : ℝ))].length => ([((![0] : Pt 1), (1 : ℝ), (1 : ℝ))].get j).2.2) = diagonal fun _ : Fin 1 => C (0 : Fin 1) (0 : Fin 1) + 1 := by
    ext i j
    have h1 : i = 0 := Subsingleton.elim (α := Fin 1) _ _
    have h2 : j = 0 := Subsingleton.elim (α := Fin 1) _ _
    subst h1 h2
    simp
  rw [e]
  refine Matrix.posDef_diagonal_iff.2 fun _ => ?_
  have := h (0 : Fin 1)
  rw [this]
  norm_num

/-- The hypotheses of `C131_rate`: two exact measurements, kernel noise 1/100, predicted at distance 3. -/
example : (∀ r ∈ [((![0] : Pt 1), (1 : ℝ), (0 : ℝ)), (![1], 2, 0)], 1 / 100 ≤ 1 / 100 + r.2.2) ∧
    ∀ i : Fin 1, ∀ r ∈ [((![0] : Pt 1), (1 : ℝ), (0 : ℝ)), (![1], 2, 0)], 9 ≤ sqDist ((fun _ => ![4] : Fin 1 → Pt 1) i) r.1 := by
  refine ⟨by simp, ?_⟩
  simp [sqDist]
  norm_num

end Lop.Props
