import Verif.Proofs.CovEntries
import Mathlib.Data.Fin.VecNotation
import Mathlib.Analysis.SpecialFunctions.Exp
import Mathlib.Analysis.Complex.ExponentialBounds

/-! # Properties C31, C32, C33 – covariance matrices -/

namespace Lop.Props

open Lop.Spec Matrix

variable {d n m : Nat}

/-! ## C31 positive semi-definiteness -/

/-- C31: for every sum/product of RBF, linear and (in one dimension) periodic kernels and every
non-empty list of points, `cov(X, X)` returns a symmetric positive semidefinite matrix. -/
theorem C31_psd (k : KExpr ℝ (Pt d)) (X : Fin n → Pt d) (hn : 0 < n)
    (hok : AllLeaves (LeafOK (d = 1)) k) (hnz : AllLeaves NotZeroed k) :
    ∃ c, k.cov X X = .ok c ∧ (∀ i j, c i j = c j i) ∧
      (∀ w : Fin n → ℝ, 0 ≤ ∑ i, ∑ j, w i * c i j * w j) ∧ c.PosSemidef := by
  obtain ⟨c, hc, hp⟩ := expr_psd k X hn hok (zeroNotAlone_of_notZeroed X k hnz)
  refine ⟨c, hc, fun i j => ?_, fun w => ?_, hp⟩
  · have := hp.isHermitian.apply j i
    simpa using this
  · have := hp.dotProduct_mulVec_nonneg w
    simpa [dotProduct, mulVec, Finset.mul_sum, mul_assoc] using this

/-- C31 extended to zeroed kernels, as long as the zero point is not the only point. -/
theorem C31_psd_zeroed (k : KExpr ℝ (Pt d)) (X : Fin n → Pt d) (hn : 0 < n)
    (hok : AllLeaves (LeafOK (d = 1)) k) (hz : AllLeaves (ZeroNotAlone X) k) :
    ∃ c, k.cov X X = .ok c ∧ c.PosSemidef := expr_psd k X hn hok hz

/-- C31: with positive RBF noise (in a sum, or in a product with a kernel of positive variance at the
points) the matrix is positive definite and has a Cholesky factor. -/
theorem C31_definite_partial (k : KExpr ℝ (Pt d)) (X : Fin n → Pt d) (hn : 0 < n)
    (hok : AllLeaves (LeafOK (d = 1)) k) (hnz : AllLeaves NotZeroed k) (hnoisy : Noisy X k) :
    ∃ c, k.cov X X = .ok c ∧ c.PosDef ∧ ∃ L, IsCholesky c L := by
  obtain ⟨c, e, hc, he, hp⟩ := expr_shift k X hn hok hnz hnoisy
  have hd := posDef_of_shift he hp
  exact ⟨c, hc, hd, exists_cholesky hd⟩

/-- C31: noise alone is not enough in a product – the product of a noisy RBF kernel with a linear
kernel of zero variance at a point is singular. -/
theorem C31_product_counterexample :
    ∃ c, (KExpr.dual .mul (.leaf (.rbf 1 1 1)) (.leaf (.linear 1 0 0)) : KExpr ℝ (Pt 1)).cov
        (fun _ : Fin 1 => ![0]) (fun _ : Fin 1 => ![0]) = .ok c ∧ ¬ c.PosDef := by
  obtain ⟨c, hc⟩ := cov_returns (KExpr.dual .mul (.leaf (.rbf 1 1 1)) (.leaf (.linear 1 0 0)) :
    KExpr ℝ (Pt 1)) (fun _ : Fin 1 => ![0]) (fun _ : Fin 1 => ![0]) one_pos
  refine ⟨c, hc, fun h => ?_⟩
  obtain ⟨ca, cb, _, hb, hcc⟩ := dual_cov_inv hc
  have h1 := h.diag_pos (i := 0)
  rw [hcc 0 0] at h1
  simp only [KExpr.cov, KLeaf.cov, Except.ok.injEq] at hb
  subst hb
  simp at h1

/-- C31: two empty arrays are rejected by the RBF kernel. -/
theorem C31_empty (s l noise : ℝ) (X Y : Fin 0 → Pt d) :
    (KExpr.leaf (.rbf s l noise)).cov X Y = .error .indexError := by
  simp [KExpr.cov, KLeaf.cov, rbfCov]

/-- The zeroed kernel on the zero point alone has a *negative* variance when there is noise. -/
theorem C31_zeroed_alone_counterexample (s l noise : ℝ) (hs : s ≠ 0) (hnoise : 0 < noise)
    (z : Pt d) :
    ∃ c, (KExpr.leaf (.zeroed s l (some z) noise)).cov (fun _ : Fin 1 => z) (fun _ : Fin 1 => z)
      = .ok c ∧ c 0 0 < 0 := by
  obtain ⟨c, hc⟩ := cov_returns (KExpr.leaf (.zeroed s l (some z) noise))
    (fun _ : Fin 1 => z) (fun _ : Fin 1 => z) one_pos
  refine ⟨c, hc, ?_⟩
  have hspot : NoiseSpot (fun _ : Fin 1 => z) (fun _ : Fin 1 => z) 0 0 := ⟨rfl, ⟨by omega, by omega, rfl⟩, rfl⟩
  have h := zeroedCov_entry hc 0 0
  simp only [zeroPt, Option.getD_some, noiseTerm_on hspot, rbfEval_self] at h
  rw [h]
  have hss : 0 < s * s := mul_self_pos.2 hs
  have : s * s + noise - (s * s + noise) * (s * s + noise) / (s * s)
      = -(noise * (s * s + noise)) / (s * s) := by field_simp; ring
  rw [this]
  exact div_neg_of_neg_of_pos (by nlinarith) hss

/-- In two dimensions the periodic kernel (which uses the 1-norm) is not positive semidefinite. -/
theorem C31_periodic_two_dim_counterexample :
    ∃ c, (KExpr.leaf (.periodic 1 2 6) : KExpr ℝ (Pt 2)).cov
        (![![0, 0], ![1, 0], ![0, 1], ![1, 1]] : Fin 4 → Pt 2) ![![0, 0], ![1, 0], ![0, 1], ![1, 1]]
        = .ok c ∧ ∑ i, ∑ j, ![1, -1, -1, 1] i * c i j * ![1, -1, -1, 1] j < 0 := by
  refine ⟨_, rfl, ?_⟩
  have h3 : ∀ u v : Pt 2, l1Dist u v = 1 → perExp 2 6 u v = Real.exp (-1 / 8) := by
    intro u v h
    rw [perExp, h]
    have : Real.pi * 1 / 6 = Real.pi / 6 := by ring
    rw [this, Real.sin_pi_div_six]
    norm_num
  have h4 : ∀ u v : Pt 2, l1Dist u v = 2 → perExp 2 6 u v = Real.exp (-1 / 8) ^ 3 := by
    intro u v h
    rw [perExp, h, ← Real.exp_nat_mul]
    have : Real.pi * 2 / 6 = Real.pi / 3 := by ring
    rw [this, Real.sin_pi_div_three, mul_assoc]
    have h : Real.sqrt 3 / 2 * (Real.sqrt 3 / 2) = 3 / 4 := by
      rw [div_mul_div_comm, Real.mul_self_sqrt (by norm_num)]; norm_num
    rw [h]
    norm_num
  have h0 : ∀ u v : Pt 2, l1Dist u v = 0 → perExp 2 6 u v = 1 := by
    intro u v h
    rw [perExp, h]
    simp
  have hx : 1 / 8 * (-1 : ℝ) + 1 ≤ Real.exp (-1 / 8) := by
    have := Real.add_one_le_exp (-1 / 8 : ℝ)
    linarith
  have hx1 : Real.exp (-1 / 8) < 1 := by
    rw [Real.exp_lt_one_iff]; norm_num
  have e1 : ∀ a b : ℝ, l1Dist ![a, b] ![a, b] = 0 := by intro a b; simp [l1Dist]
  simp only [Fin.sum_univ_four, Matrix.of_apply]
  simp only [Matrix.cons_val]
  rw [h0 ![0, 0] ![0, 0] (e1 _ _), h0 ![1, 0] ![1, 0] (e1 _ _), h0 ![0, 1] ![0, 1] (e1 _ _),
    h0 ![1, 1] ![1, 1] (e1 _ _),
    h3 ![0, 0] ![1, 0] (by simp [l1Dist]), h3 ![0, 0] ![0, 1] (by simp [l1Dist]),
    h4 ![0, 0] ![1, 1] (by simp [l1Dist, Fin.sum_univ_two]; norm_num),
    h3 ![1, 0] ![0, 0] (by simp [l1Dist]),
    h4 ![1, 0] ![0, 1] (by simp [l1Dist, Fin.sum_univ_two]; norm_num),
    h3 ![1, 0] ![1, 1] (by simp [l1Dist]), h3 ![0, 1] ![0, 0] (by simp [l1Dist]),
    h4 ![0, 1] ![1, 0] (by simp [l1Dist, Fin.sum_univ_two]; norm_num),
    h3 ![0, 1] ![1, 1] (by simp [l1Dist]),
    h4 ![1, 1] ![0, 0] (by simp [l1Dist, Fin.sum_univ_two]; norm_num),
    h3 ![1, 1] ![1, 0] (by simp [l1Dist]), h3 ![1, 1] ![0, 1] (by simp [l1Dist])]
  generalize Real.exp (-1 / 8) = x at *
  have hfac : (1 - x) * (x ^ 2 + x - 1) > 0 := mul_pos (by linarith) (by nlinarith)
  nlinarith

/-- Instance of C31: a product and sum of kernels, two points in one dimension. -/
example : AllLeaves (LeafOK (1 = 1))
      (.dual .add (.leaf (.rbf 1 2 (1 / 10))) (.dual .mul (.leaf (.linear 1 1 0))
        (.leaf (.periodic 1 1 3))) : KExpr ℝ (Pt 1)) ∧
    Noisy (![![0], ![1]] : Fin 2 → Pt 1)
      (.dual .add (.leaf (.rbf 1 2 (1 / 10))) (.dual .mul (.leaf (.linear 1 1 0))
        (.leaf (.periodic 1 1 3)))) := by
  refine ⟨⟨⟨by norm_num, by norm_num⟩, trivial, by norm_num, by norm_num, rfl⟩, ?_⟩
  exact .addLeft (.rbf (by norm_num))

/-! ## C32 matrix entries versus the pointwise kernel -/

/-- C32: `cov` returns whenever there are rows, and away from the positions where the RBF kernel adds
noise (square matrix, equal first points, diagonal) every entry equals the pointwise kernel, for every
sum/product without zeroed kernels. -/
theorem C32_entries_partial (k : KExpr ℝ (Pt d)) (hnz : AllLeaves NotZeroed k) (X : Fin n → Pt d)
    (Y : Fin m → Pt d) (hn : 0 < n) :
    ∃ c, k.cov X Y = .ok c ∧ ∀ i j,
      (n ≠ m ∨ (∀ hn hm, X ⟨0, hn⟩ ≠ Y ⟨0, hm⟩) ∨ i.val ≠ j.val) →
      c i j = k.eval (X i) (Y j) := by
  obtain ⟨c, hc⟩ := cov_returns k X Y hn
  refine ⟨c, hc, fun i j h => cov_entry k hnz X Y hc i j ?_⟩
  rintro ⟨h1, ⟨h2, h3, h4⟩, h5⟩
  rcases h with h | h | h
  · exact h h1
  · exact h h2 h3 h4
  · exact h h5

/-- C32 for one and the same list of samples: a sum of kernels adds its total noise exactly on the
diagonal, where the two points are the same sample. -/
theorem C32_same_list_partial (k : KExpr ℝ (Pt d)) (hnz : AllLeaves NotZeroed k) (hs : OnlySums k)
    (X : Fin n → Pt d) (hn : 0 < n) :
    ∃ c, k.cov X X = .ok c ∧
      ∀ i j, c i j = k.eval (X i) (X j) + if i = j then noiseSum k else 0 := by
  obtain ⟨c, hc⟩ := cov_returns k X X hn
  refine ⟨c, hc, fun i j => ?_⟩
  by_cases h : i = j
  · subst h
    rw [if_pos rfl]
    exact cov_entry_noise k hnz hs X X hc i i ⟨rfl, ⟨hn, hn, rfl⟩, rfl⟩
  · rw [if_neg h, add_zero]
    exact cov_entry k hnz X X hc i j fun hh => h (Fin.ext hh.2.2)

/-- C32, all entries of all sums and products without zeroed kernels: the pointwise kernel, or, on the diagonal of a square
matrix between lists with equal first points, the kernel with the noise of every leaf added in that leaf.  Whether the two points
of an entry are equal plays no role. -/
theorem C32_exact (k : KExpr ℝ (Pt d)) (hnz : AllLeaves NotZeroed k) (X : Fin n → Pt d) (Y : Fin m → Pt d) (hn : 0 < n) :
    ∃ c, k.cov X Y = .ok c ∧ ∀ i j,
      (NoiseSpot X Y i j → c i j = evalNoisy (X i) (Y j) k) ∧ (¬ NoiseSpot X Y i j → c i j = k.eval (X i) (Y j)) := by
  obtain ⟨c, hc⟩ := cov_returns k X Y hn
  refine ⟨c, hc, fun i j => ⟨fun h => ?_, cov_entry k hnz X Y hc i j⟩⟩
  induction k generalizing c with
  | leaf k => exact cov_entry_noise (.leaf k) hnz (by simp [OnlySums]) X Y hc i j h
  | dual op a b iha ihb =>
    obtain ⟨ca, cb, ha, hb, hcc⟩ := dual_cov_inv hc
    rw [hcc i j]
    cases op <;> simp only [evalNoisy, iha hnz.1 ca ha, ihb hnz.2 cb hb]

/-- C32, exactly when an RBF kernel with noise has an entry that is not the pointwise kernel. -/
theorem C32_rbf_exact (s l noise : ℝ) (hnoise : noise ≠ 0) (X : Fin n → Pt d) (Y : Fin m → Pt d) (hn : 0 < n) :
    ∃ c, (KExpr.leaf (.rbf s l noise)).cov X Y = .ok c ∧ ∀ i j,
      (c i j = (KExpr.leaf (.rbf s l noise)).eval (X i) (Y j) ↔ ¬ NoiseSpot X Y i j) := by
  obtain ⟨c, hc, h⟩ := C32_exact (KExpr.leaf (.rbf s l noise)) (by simp [AllLeaves, NotZeroed]) X Y hn
  refine ⟨c, hc, fun i j => ⟨fun he hs => ?_, (h i j).2⟩⟩
  rw [(h i j).1 hs] at he
  simp only [evalNoisy, noiseOf, KExpr.eval] at he
  exact hnoise (by linarith)

/-- C32 as stated is false: two lists with equal length and equal first point get noise between
*different* points, for every noise level and length scale. -/
theorem C32_different_points_counterexample (s l noise : ℝ) (hnoise : noise ≠ 0) :
    ∃ c, (KExpr.leaf (.rbf s l noise) : KExpr ℝ (Pt 1)).cov
        (![![0], ![1]] : Fin 2 → Pt 1) (![![0], ![5]] : Fin 2 → Pt 1) = .ok c ∧
      (![1] : Pt 1) ≠ ![5] ∧
      c 1 1 ≠ (KExpr.leaf (.rbf s l noise)).eval ![1] ![5] := by
  obtain ⟨c, hc⟩ := cov_returns (KExpr.leaf (.rbf s l noise) : KExpr ℝ (Pt 1))
    (![![0], ![1]] : Fin 2 → Pt 1) (![![0], ![5]] : Fin 2 → Pt 1) two_pos
  refine ⟨c, hc, fun h => ?_, ?_⟩
  · have := congrFun h 0
    norm_num at this
  · have := cov_entry_noise _ (by simp [AllLeaves, NotZeroed]) (by simp [OnlySums]) _ _ hc 1 1
      ⟨rfl, ⟨two_pos, two_pos, rfl⟩, rfl⟩
    rw [this]
    simp only [Matrix.cons_val, noiseSum, noiseOf]
    intro h
    exact hnoise (by linarith)

/-- C32 for zeroed kernels is false even without noise, whenever the variance is not 1: the matrix and
the pointwise value at the zero point differ. -/
theorem C32_zeroed_counterexample (s l : ℝ) (hs : s * s ≠ 1) (hs0 : s ≠ 0) (z : Pt d) :
    ∃ c, (KExpr.leaf (.zeroed s l (some z) 0)).cov (fun _ : Fin 1 => z) (fun _ : Fin 1 => z)
      = .ok c ∧ c 0 0 ≠ (KExpr.leaf (.zeroed s l (some z) 0)).eval z z := by
  obtain ⟨c, hc⟩ := cov_returns (KExpr.leaf (.zeroed s l (some z) 0))
    (fun _ : Fin 1 => z) (fun _ : Fin 1 => z) one_pos
  refine ⟨c, hc, ?_⟩
  have h := zeroedCov_entry hc 0 0
  simp only [zeroPt, Option.getD_some, noiseTerm_zero, rbfEval_self, add_zero] at h
  have hss : s * s ≠ 0 := mul_self_ne_zero.2 hs0
  rw [h]
  simp only [KExpr.eval, KLeaf.eval, zeroPt, Option.getD_some, rbfEval_self]
  rw [mul_div_assoc, div_self hss]
  intro h
  apply hs
  have : (s * s) * (s * s - 1) = 0 := by linarith
  rcases mul_eq_zero.1 this with h | h
  · exact absurd h hss
  · linarith

example : AllLeaves NotZeroed
      (.dual .add (.leaf (.rbf 1 2 (1 / 10))) (.leaf (.linear 1 1 0)) : KExpr ℝ (Pt 2)) ∧
    OnlySums (.dual .add (.leaf (.rbf 1 2 (1 / 10))) (.leaf (.linear 1 1 0)) : KExpr ℝ (Pt 2)) := by
  simp [AllLeaves, NotZeroed, OnlySums]

/-! ## C33 the zeroed kernel -/

/-- C33 without noise: the covariance of the zero point with every point is 0, whatever the arrays. -/
theorem C33_no_noise_partial (s l : ℝ) (hs : s ≠ 0) (z : Option (Pt d)) (X : Fin n → Pt d)
    (Y : Fin m → Pt d) (i : Fin n) (hx : X i = zeroPt z) :
    ∃ c, (KExpr.leaf (.zeroed s l z 0)).cov X Y = .ok c ∧ ∀ j, c i j = 0 := by
  obtain ⟨c, hc⟩ := cov_returns (KExpr.leaf (.zeroed s l z 0)) X Y i.pos
  refine ⟨c, hc, fun j => ?_⟩
  have h := zeroedCov_entry hc i j
  simp only [noiseTerm_zero, add_zero, hx, rbfEval_self] at h
  rw [h, mul_div_assoc, mul_div_cancel₀ _ (mul_self_ne_zero.2 hs), sub_self]

/-- C33 with noise: for arrays of at least two points each, the covariance of the zero point with
every point is 0 except that the observation noise is added where `RBF_kern.cov` adds it. -/
theorem C33_noise_partial (s l noise : ℝ) (hs : s ≠ 0) (z : Option (Pt d)) (X : Fin n → Pt d)
    (Y : Fin m → Pt d) (hn : 2 ≤ n) (hm : 2 ≤ m) (i : Fin n) (hx : X i = zeroPt z) :
    ∃ c, (KExpr.leaf (.zeroed s l z noise)).cov X Y = .ok c ∧ ∀ j,
      (NoiseSpot X Y i j → c i j = noise) ∧ (¬ NoiseSpot X Y i j → c i j = 0) := by
  obtain ⟨c, hc⟩ := cov_returns (KExpr.leaf (.zeroed s l z noise)) X Y i.pos
  refine ⟨c, hc, fun j => ?_⟩
  have h := zeroedCov_entry hc i j
  have e1 : noiseTerm noise X (fun _ : Fin 1 => zeroPt z) i 0 = 0 :=
    noiseTerm_off fun hh => by have := hh.1; omega
  have e2 : noiseTerm noise (fun _ : Fin 1 => zeroPt z) Y 0 j = 0 :=
    noiseTerm_off fun hh => by have := hh.1; omega
  rw [e1, e2, hx, rbfEval_self, add_zero, add_zero, mul_div_assoc,
    mul_div_cancel₀ _ (mul_self_ne_zero.2 hs), add_sub_cancel_left] at h
  rw [h]
  exact ⟨noiseTerm_on, noiseTerm_off⟩

/-- C33 is false for a single query point: with positive noise the covariance of the zero point with
any other pair of points is not 0. -/
theorem C33_single_row_counterexample (s l noise : ℝ) (hs : s ≠ 0) (hnoise : noise ≠ 0) (z : Pt d)
    (Y : Fin 2 → Pt d) :
    ∃ c, (KExpr.leaf (.zeroed s l (some z) noise)).cov (fun _ : Fin 1 => z) Y = .ok c ∧
      ∀ j, c 0 j ≠ 0 := by
  obtain ⟨c, hc⟩ := cov_returns (KExpr.leaf (.zeroed s l (some z) noise))
    (fun _ : Fin 1 => z) Y one_pos
  refine ⟨c, hc, fun j => ?_⟩
  have h := zeroedCov_entry hc 0 j
  have hspot : NoiseSpot (fun _ : Fin 1 => z) (fun _ : Fin 1 => z) 0 0 := ⟨rfl, ⟨by omega, by omega, rfl⟩, rfl⟩
  have e1 : noiseTerm noise (fun _ : Fin 1 => z) Y 0 j = 0 :=
    noiseTerm_off fun hh => by have := hh.1; omega
  simp only [zeroPt, Option.getD_some, noiseTerm_on hspot, rbfEval_self, e1, add_zero] at h
  have hss : s * s ≠ 0 := mul_self_ne_zero.2 hs
  have hpos : rbfEval s l z (Y j) ≠ 0 := by
    rw [rbfEval]
    exact mul_ne_zero hss (Real.exp_pos _).ne'
  rw [h]
  have : rbfEval s l z (Y j) - (s * s + noise) * rbfEval s l z (Y j) / (s * s)
      = -(noise * rbfEval s l z (Y j)) / (s * s) := by field_simp; ring
  rw [this]
  exact div_ne_zero (neg_ne_zero.2 (mul_ne_zero hnoise hpos)) hss

/-- C33, pointwise evaluation: the kernel at the zero point is `(1 - σ²)` times the RBF value, hence 0
for every other point exactly when `σ² = 1`. -/
theorem C33_pointwise_partial (s l noise : ℝ) (hs : s ≠ 0) (z : Option (Pt d)) (v : Pt d) :
    (KExpr.leaf (.zeroed s l z noise)).eval (zeroPt z) v = 0 ↔ s * s = 1 := by
  simp only [KExpr.eval, KLeaf.eval, rbfEval_self]
  rw [rbfEval_comm s l v (zeroPt z)]
  have hpos : rbfEval s l (zeroPt z) v ≠ 0 := by
    rw [rbfEval]
    exact mul_ne_zero (mul_self_ne_zero.2 hs) (Real.exp_pos _).ne'
  constructor
  · intro h
    have : (1 - s * s) * rbfEval s l (zeroPt z) v = 0 := by linarith
    rcases mul_eq_zero.1 this with h | h
    · linarith
    · exact absurd h hpos
  · intro h
    rw [h]; ring

/-- C33 is false pointwise for the kernel with `σ = 2`. -/
theorem C33_pointwise_counterexample (v : Pt d) :
    (KExpr.leaf (.zeroed 2 1 none 0)).eval (0 : Pt d) v ≠ 0 := by
  intro h
  have := (C33_pointwise_partial 2 1 0 two_ne_zero none v).1 h
  norm_num at this

/-- Instance of C33: the zero point as second of two query points. -/
example : (![![1], ![0]] : Fin 2 → Pt 1) 1 = zeroPt none := by
  funext i
  simp [zeroPt]

end Lop.Props
