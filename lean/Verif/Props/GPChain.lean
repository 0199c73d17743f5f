import Verif.Proofs.GPChain

/-! # C139: predictions made one after another multiply to the joint density of the measurements -/

namespace Lop.Props

open Spec Matrix MeasureTheory ProbabilityTheory

variable {d : Nat}

private lemma self_cov {k : KExpr ℝ (Pt d)} {g : Pt d → Pt d → ℝ}
    (hg : ∀ {n m : Nat} (X : Fin n → Pt d) (Y : Fin m → Pt d) c, k.cov X Y = .ok c → ∀ i j, c i j = g (X i) (Y j)) {z : Nat → Pt d} {s : Nat → ℝ} {T : Nat}
    {c : Matrix (Fin T) (Fin T) ℝ} (hc : k.cov (fun t : Fin T => z t) (fun t : Fin T => z t) = .ok c) :
    c + diagonal (fun t : Fin T => s t) = dataCov g z s T := by
  unfold dataCov
  congr 1
  ext i j
  rw [hg _ _ c hc]
  rfl

/-- C139, the chain: each measurement is predicted from the ones before it, then added. The predicted variances (with the noise) multiply to the determinant of
the covariance matrix of all measurements, the squared errors in units of these variances add up to its quadratic form, and the predicted densities
of the measurements multiply to their joint density. -/
theorem C139_joint (k : KExpr ℝ (Pt d)) (hok : AllLeaves (LeafOK (d = 1)) k) (hq : AllLeaves NoNoise k) (z : Nat → Pt d) {s : Nat → ℝ}
    (hs : ∀ t, 0 < s t) (y : Nat → ℝ) :
    ∃ pred : Nat → GPPred 1, (∀ t, gpRegress (kcov k) (fun _ => 0) (dataOf (fun _ => 0) z s y t) (fun _ => z t) = .ok (pred t)) ∧
      (∀ t, 0 ≤ (pred t).sigma 0) ∧
      ∀ (T : Nat) (c : Matrix (Fin T) (Fin T) ℝ), k.cov (fun t : Fin T => z t) (fun t : Fin T => z t) = .ok c →
        ∏ t ∈ Finset.range T, ((pred t).sigma 0 + s t) = (c + diagonal fun t : Fin T => s t).det ∧
        ∑ t ∈ Finset.range T, (y t - (pred t).mu 0) ^ 2 / ((pred t).sigma 0 + s t) =
          (fun t : Fin T => y t) ⬝ᵥ (c + diagonal fun t : Fin T => s t)⁻¹ *ᵥ (fun t => y t) ∧
        ∏ t ∈ Finset.range T, gaussianPDFReal ((pred t).mu 0) ((pred t).sigma 0 + s t).toNNReal (y t) =
          jointDensity (c + diagonal fun t : Fin T => s t) fun t => y t := by
  obtain ⟨g, hg, hsym, hpos, -⟩ := kernel_fn k hok hq
  have ha : ∀ x, 0 ≤ g x x := fun x => by
    have := hpos x (t := 0) (fun j => j.elim0) (fun j => j.elim0)
    simpa [dotProduct] using this
  choose pred h1 h2 h3 _ h5 h6 using fun t => next_prediction hok hq hg ha z hs y t
  have hpp : ∀ t, 0 < (pred t).sigma 0 + s t := fun t => add_pos_of_nonneg_of_pos (h3 t) (hs t)
  have hstep := fun t => chain_step hsym z s y t (h2 t) (h5 t) (h6 t) (hpp t).ne'
  have hdet : ∀ T, ∏ t ∈ Finset.range T, ((pred t).sigma 0 + s t) = (dataCov g z s T).det := by
    intro T
    induction T with
    | zero => simp
    | succ T ih => rw [Finset.prod_range_succ, ih, (hstep T).1]
  have hquad : ∀ T, ∑ t ∈ Finset.range T, (y t - (pred t).mu 0) ^ 2 / ((pred t).sigma 0 + s t) =
      (fun t : Fin T => y t) ⬝ᵥ (dataCov g z s T)⁻¹ *ᵥ (fun t => y t) := by
    intro T
    induction T with
    | zero => simp
    | succ T ih => rw [Finset.sum_range_succ, ih, (hstep T).2]
  have hpdf : ∀ t, gaussianPDFReal ((pred t).mu 0) ((pred t).sigma 0 + s t).toNNReal (y t) =
      (Real.sqrt (2 * Real.pi * ((pred t).sigma 0 + s t)))⁻¹ * Real.exp (-((y t - (pred t).mu 0) ^ 2 / ((pred t).sigma 0 + s t)) / 2) := by
    intro t
    rw [gaussianPDFReal, Real.coe_toNNReal _ (hpp t).le]
    congr 2
    have := (hpp t).ne'
    field_simp
  have hprod : ∀ T, ∏ t ∈ Finset.range T, gaussianPDFReal ((pred t).mu 0) ((pred t).sigma 0 + s t).toNNReal (y t) =
      (Real.sqrt ((2 * Real.pi) ^ T * ∏ t ∈ Finset.range T, ((pred t).sigma 0 + s t)))⁻¹ *
        Real.exp (-(∑ t ∈ Finset.range T, (y t - (pred t).mu 0) ^ 2 / ((pred t).sigma 0 + s t)) / 2) := by
    intro T
    induction T with
    | zero => simp
    | succ T ih =>
      have hpr : 0 ≤ ∏ t ∈ Finset.range T, ((pred t).sigma 0 + s t) := Finset.prod_nonneg fun t _ => (hpp t).le
      rw [Finset.prod_range_succ, Finset.prod_range_succ, Finset.sum_range_succ, ih, hpdf]
      have e : (2 * Real.pi) ^ (T + 1) * ((∏ t ∈ Finset.range T, ((pred t).sigma 0 + s t)) * ((pred T).sigma 0 + s T)) =
          ((2 * Real.pi) ^ T * ∏ t ∈ Finset.range T, ((pred t).sigma 0 + s t)) * (2 * Real.pi * ((pred T).sigma 0 + s T)) := by ring
      rw [e, Real.sqrt_mul (mul_nonneg (by positivity) hpr), neg_add, add_div, Real.exp_add, mul_inv]
      ring
  refine ⟨pred, h1, h3, fun T c hc => ?_⟩
  rw [self_cov hg hc]
  refine ⟨hdet T, hquad T, ?_⟩
  rw [hprod, jointDensity, ← hquad, ← hdet]

/-- C139, the order: the predicted densities multiply to the same number whatever the order of the measurements. -/
theorem C139_order (k : KExpr ℝ (Pt d)) (hok : AllLeaves (LeafOK (d = 1)) k) (hq : AllLeaves NoNoise k) {z z' : Nat → Pt d} {s s' : Nat → ℝ}
    (hs : ∀ t, 0 < s t) (hs' : ∀ t, 0 < s' t) {y y' : Nat → ℝ} {T : Nat} (σ : Equiv.Perm (Fin T)) (hz : ∀ t : Fin T, z' t = z (σ t))
    (hss : ∀ t : Fin T, s' t = s (σ t)) (hy : ∀ t : Fin T, y' t = y (σ t)) {pred pred' : Nat → GPPred 1}
    (hp : ∀ t, gpRegress (kcov k) (fun _ => 0) (dataOf (fun _ => 0) z s y t) (fun _ => z t) = .ok (pred t))
    (hp' : ∀ t, gpRegress (kcov k) (fun _ => 0) (dataOf (fun _ => 0) z' s' y' t) (fun _ => z' t) = .ok (pred' t)) :
    ∏ t ∈ Finset.range T, gaussianPDFReal ((pred' t).mu 0) ((pred' t).sigma 0 + s' t).toNNReal (y' t) =
      ∏ t ∈ Finset.range T, gaussianPDFReal ((pred t).mu 0) ((pred t).sigma 0 + s t).toNNReal (y t) := by
  rcases Nat.eq_zero_or_pos T with h0 | hT
  · subst h0
    simp
  obtain ⟨q, h1, -, h2⟩ := C139_joint k hok hq z hs y
  obtain ⟨q', h1', -, h2'⟩ := C139_joint k hok hq z' hs' y'
  obtain rfl : q = pred := funext fun t => Except.ok.inj ((h1 t).symm.trans (hp t))
  obtain rfl : q' = pred' := funext fun t => Except.ok.inj ((h1' t).symm.trans (hp' t))
  obtain ⟨g, hg, -, -, -⟩ := kernel_fn k hok hq
  obtain ⟨c, hc⟩ := cov_returns k (fun t : Fin T => z t) (fun t : Fin T => z t) hT
  obtain ⟨c', hc'⟩ := cov_returns k (fun t : Fin T => z' t) (fun t : Fin T => z' t) hT
  rw [(h2 T c hc).2.2, (h2' T c' hc').2.2]
  have hD : c' + diagonal (fun t : Fin T => s' t) = (c + diagonal fun t : Fin T => s t).submatrix σ σ := by
    ext i j
    rw [Matrix.add_apply, submatrix_apply, Matrix.add_apply, hg _ _ c hc, hg _ _ c' hc', hz, hz]
    congr 1
    by_cases h : i = j
    · rw [h, diagonal_apply_eq, diagonal_apply_eq, hss]
    · rw [diagonal_apply_ne _ h, diagonal_apply_ne _ fun e => h (σ.injective e)]
  have hyy : (fun t : Fin T => y' t) = (fun t : Fin T => y t) ∘ σ := funext hy
  unfold jointDensity
  rw [hD, hyy, det_submatrix_equiv_self, inv_submatrix_equiv, submatrix_mulVec_equiv, Function.comp_assoc, Equiv.self_comp_symm, Function.comp_id,
    comp_equiv_dotProduct_comp_equiv]

/-- C139, information: what all measurements together tell about the function, half the logarithm of a determinant, is the sum of what each of them
tells after the ones before it. -/
theorem C139_information (k : KExpr ℝ (Pt d)) (hok : AllLeaves (LeafOK (d = 1)) k) (hq : AllLeaves NoNoise k) (z : Nat → Pt d) {s : ℝ}
    (hs : 0 < s) (y : Nat → ℝ) {pred : Nat → GPPred 1}
    (hp : ∀ t, gpRegress (kcov k) (fun _ => 0) (dataOf (fun _ => 0) z (fun _ => s) y t) (fun _ => z t) = .ok (pred t)) {T : Nat}
    {c : Matrix (Fin T) (Fin T) ℝ} (hc : k.cov (fun t : Fin T => z t) (fun t : Fin T => z t) = .ok c) :
    ∑ t ∈ Finset.range T, Real.log (1 + (pred t).sigma 0 / s) = Real.log (1 + s⁻¹ • c).det := by
  obtain ⟨q, h1, h3, h2⟩ := C139_joint k hok hq z (s := fun _ => s) (fun _ => hs) y
  obtain rfl : q = pred := funext fun t => Except.ok.inj ((h1 t).symm.trans (hp t))
  have hone : ∀ t, 0 < 1 + (q t).sigma 0 / s := fun t => by
    have := div_nonneg (h3 t) hs.le
    linarith
  have hd := (h2 T c hc).1
  have e1 : c + diagonal (fun _ : Fin T => s) = s • (1 + s⁻¹ • c) := by
    rw [smul_add, smul_smul, mul_inv_cancel₀ hs.ne', one_smul, add_comm, smul_one_eq_diagonal]
  have e2 : ∏ t ∈ Finset.range T, ((q t).sigma 0 + s) = s ^ T * ∏ t ∈ Finset.range T, (1 + (q t).sigma 0 / s) := by
    have : ∀ t ∈ Finset.range T, (q t).sigma 0 + s = s * (1 + (q t).sigma 0 / s) := fun t _ => by
      field_simp
      ring
    rw [Finset.prod_congr rfl this, Finset.prod_mul_distrib, Finset.prod_const, Finset.card_range]
  rw [e1, det_smul, Fintype.card_fin, e2] at hd
  rw [← mul_left_cancel₀ (pow_pos hs T).ne' hd, Real.log_prod fun t _ => (hone t).ne']

/-- C139, the widths: the predicted standard deviations at the measured points add up to little if all measurements together tell little. -/
theorem C139_widths (k : KExpr ℝ (Pt d)) (hok : AllLeaves (LeafOK (d = 1)) k) (hq : AllLeaves NoNoise k) (z : Nat → Pt d) {s v : ℝ}
    (hs : 0 < s) (hv : 0 < v) (y : Nat → ℝ) {pred : Nat → GPPred 1}
    (hp : ∀ t, gpRegress (kcov k) (fun _ => 0) (dataOf (fun _ => 0) z (fun _ => s) y t) (fun _ => z t) = .ok (pred t)) {T : Nat}
    {c : Matrix (Fin T) (Fin T) ℝ} (hc : k.cov (fun t : Fin T => z t) (fun t : Fin T => z t) = .ok c) (hcv : ∀ t, c t t ≤ v) :
    ∑ t ∈ Finset.range T, Real.sqrt ((pred t).sigma 0) ≤ Real.sqrt (T * (v / Real.log (1 + v / s) * Real.log (1 + s⁻¹ • c).det)) := by
  obtain ⟨g, hg, hsym, hpos, -⟩ := kernel_fn k hok hq
  have ha : ∀ x, 0 ≤ g x x := fun x => by
    have := hpos x (t := 0) (fun j => j.elim0) (fun j => j.elim0)
    simpa [dotProduct] using this
  have hb : ∀ t, 0 ≤ (pred t).sigma 0 ∧ (pred t).sigma 0 ≤ g (z t) (z t) := fun t => by
    obtain ⟨p, a1, -, a2, a3, -⟩ := next_prediction hok hq hg ha z (s := fun _ => s) (fun _ => hs) y t
    rw [hp t] at a1
    cases a1
    exact ⟨a2, a3⟩
  have hlv : 0 < Real.log (1 + v / s) := Real.log_pos (by have := div_pos hv hs; linarith)
  have hlog : ∀ t ∈ Finset.range T, (pred t).sigma 0 ≤ v / Real.log (1 + v / s) * Real.log (1 + (pred t).sigma 0 / s) := by
    intro t ht
    have hx : (pred t).sigma 0 ≤ v := by
      refine (hb t).2.trans (le_trans (le_of_eq ?_) (hcv ⟨t, Finset.mem_range.1 ht⟩))
      exact (hg _ _ c hc ⟨t, Finset.mem_range.1 ht⟩ ⟨t, Finset.mem_range.1 ht⟩).symm
    have hx0 := (hb t).1
    generalize (pred t).sigma 0 = x at hx hx0
    have m1 : (1 : ℝ) ∈ Set.Ioi (0 : ℝ) := Set.mem_Ioi.2 one_pos
    have m2 : 1 + v / s ∈ Set.Ioi (0 : ℝ) := by
      have := div_pos hv hs
      rw [Set.mem_Ioi]
      linarith
    have w1 : 0 ≤ 1 - x / v := by rw [sub_nonneg, div_le_one hv]; exact hx
    have w2 : 0 ≤ x / v := by positivity
    have hconc := strictConcaveOn_log_Ioi.concaveOn.2 m1 m2 w1 w2 (by ring)
    simp only [smul_eq_mul, Real.log_one, mul_zero, zero_add, mul_one] at hconc
    have e : 1 - x / v + x / v * (1 + v / s) = 1 + x / s := by
      field_simp
      ring
    rw [e] at hconc
    calc x = v / Real.log (1 + v / s) * (x / v * Real.log (1 + v / s)) := by
          generalize Real.log (1 + v / s) = l at hlv
          field_simp
      _ ≤ _ := mul_le_mul_of_nonneg_left hconc (by positivity)
  refine Real.le_sqrt_of_sq_le ?_
  have hcs := sq_sum_le_card_mul_sum_sq (s := Finset.range T) (f := fun t => Real.sqrt ((pred t).sigma 0))
  rw [Finset.card_range] at hcs
  refine hcs.trans (mul_le_mul_of_nonneg_left ?_ (Nat.cast_nonneg T))
  rw [← C139_information k hok hq z hs y hp hc, Finset.mul_sum]
  refine Finset.sum_le_sum fun t ht => ?_
  rw [Real.sq_sqrt (hb t).1]
  exact hlog t ht

/-- A line, measured at 1 and then at 2 with noise 1: the variances with noise are 2 and 3 and multiply to the determinant 6 of the covariance matrix of both. -/
example : ∃ pred : Nat → GPPred 1,
    (∀ t, gpRegress (kcov (.leaf (.linear 1 0 0) : KExpr ℝ (Pt 1))) (fun _ => 0)
      (dataOf (fun _ => 0) (fun t => ![(t : ℝ) + 1]) (fun _ => 1) (fun t => t) t) (fun _ => ![(t : ℝ) + 1]) = .ok (pred t)) ∧
    ((pred 0).sigma 0 + 1) * ((pred 1).sigma 0 + 1) = 6 := by
  obtain ⟨pred, h1, -, h2⟩ := C139_joint (.leaf (.linear 1 0 0) : KExpr ℝ (Pt 1)) (by simp [AllLeaves, LeafOK])
    (by simp [AllLeaves, NoNoise, noiseOf]) (fun t => ![(t : ℝ) + 1]) (s := fun _ => 1) (fun _ => one_pos) (fun t => t)
  refine ⟨pred, h1, ?_⟩
  obtain ⟨c, hc⟩ := cov_returns (.leaf (.linear 1 0 0) : KExpr ℝ (Pt 1)) (fun t : Fin 2 => ![(t : ℝ) + 1]) (fun t : Fin 2 => ![(t : ℝ) + 1]) (by norm_num)
  have h := (h2 2 c hc).1
  rw [Finset.prod_range_succ, Finset.prod_range_succ, Finset.prod_range_zero, one_mul] at h
  rw [h, det_fin_two]
  simp only [KExpr.cov, KLeaf.cov] at hc
  cases hc
  norm_num

/-- The same measurements in both orders: 0 at 1 and 5 at 2. -/
example : ∃ pred pred' : Nat → GPPred 1,
    (∀ t, gpRegress (kcov (.leaf (.linear 1 0 0) : KExpr ℝ (Pt 1))) (fun _ => 0)
      (dataOf (fun _ => 0) (fun t => ![(t : ℝ) + 1]) (fun _ => 1) (fun t => 5 * t) t) (fun _ => ![(t : ℝ) + 1]) = .ok (pred t)) ∧
    (∀ t, gpRegress (kcov (.leaf (.linear 1 0 0) : KExpr ℝ (Pt 1))) (fun _ => 0)
      (dataOf (fun _ => 0) (fun t => ![2 - (t : ℝ)]) (fun _ => 1) (fun t => 5 * (1 - t)) t) (fun _ => ![2 - (t : ℝ)]) = .ok (pred' t)) ∧
    ∏ t ∈ Finset.range 2, gaussianPDFReal ((pred' t).mu 0) ((pred' t).sigma 0 + 1).toNNReal (5 * (1 - t)) =
      ∏ t ∈ Finset.range 2, gaussianPDFReal ((pred t).mu 0) ((pred t).sigma 0 + 1).toNNReal (5 * t) := by
  have hok : AllLeaves (LeafOK ((1 : Nat) = 1)) (.leaf (.linear 1 0 0) : KExpr ℝ (Pt 1)) := by simp [AllLeaves, LeafOK]
  have hq : AllLeaves NoNoise (.leaf (.linear 1 0 0) : KExpr ℝ (Pt 1)) := by simp [AllLeaves, NoNoise, noiseOf]
  obtain ⟨pred, h1, -⟩ := C139_joint _ hok hq (fun t => ![(t : ℝ) + 1]) (s := fun _ => 1) (fun _ => one_pos) (fun t => 5 * t)
  obtain ⟨pred', h1', -⟩ := C139_joint _ hok hq (fun t => ![2 - (t : ℝ)]) (s := fun _ => 1) (fun _ => one_pos) (fun t => 5 * (1 - t))
  refine ⟨pred, pred', h1, h1', ?_⟩
  refine C139_order _ hok hq (T := 2) (s := fun _ => 1) (s' := fun _ => 1) (fun _ => one_pos) (fun _ => one_pos) (Equiv.swap 0 1) (fun t => ?_)
    (fun t => rfl) (fun t => ?_) h1 h1'
  · fin_cases t <;> norm_num
  · fin_cases t <;> norm_num

/-- The widths at 1 and 2. -/
example : ∃ pred : Nat → GPPred 1,
    (∀ t, gpRegress (kcov (.leaf (.linear 1 0 0) : KExpr ℝ (Pt 1))) (fun _ => 0)
      (dataOf (fun _ => 0) (fun t => ![(t : ℝ) + 1]) (fun _ => 1) (fun t => t) t) (fun _ => ![(t : ℝ) + 1]) = .ok (pred t)) ∧
    Real.sqrt ((pred 0).sigma 0) + Real.sqrt ((pred 1).sigma 0) ≤ Real.sqrt ((2 : Nat) * (4 / Real.log (1 + 4 / 1) * Real.log 6)) := by
  have hok : AllLeaves (LeafOK ((1 : Nat) = 1)) (.leaf (.linear 1 0 0) : KExpr ℝ (Pt 1)) := by simp [AllLeaves, LeafOK]
  have hq : AllLeaves NoNoise (.leaf (.linear 1 0 0) : KExpr ℝ (Pt 1)) := by simp [AllLeaves, NoNoise, noiseOf]
  obtain ⟨pred, h1, -⟩ := C139_joint _ hok hq (fun t => ![(t : ℝ) + 1]) (s := fun _ => 1) (fun _ => one_pos) (fun t => t)
  refine ⟨pred, h1, ?_⟩
  obtain ⟨c, hc⟩ := cov_returns (.leaf (.linear 1 0 0) : KExpr ℝ (Pt 1)) (fun t : Fin 2 => ![(t : ℝ) + 1]) (fun t : Fin 2 => ![(t : ℝ) + 1]) (by norm_num)
  have hcc : c = !![1, 2; 2, 4] := by
    simp only [KExpr.cov, KLeaf.cov] at hc
    cases hc
    ext i j
    fin_cases i <;> fin_cases j <;> norm_num
  have h := C139_widths _ hok hq (fun t => ![(t : ℝ) + 1]) (s := 1) (v := 4) one_pos (by norm_num) (fun t => t) h1 (T := 2) hc
    (by rw [hcc]; intro t; fin_cases t <;> norm_num)
  have hdet : (1 + (1 : ℝ)⁻¹ • c).det = 6 := by
    rw [hcc, det_fin_two]
    norm_num
  rw [hdet, Finset.sum_range_succ, Finset.sum_range_succ, Finset.sum_range_zero, zero_add] at h
  exact h

end Lop.Props
