import Verif.Spec.Cov
import Mathlib.Analysis.Matrix.Order
import Mathlib.Analysis.Matrix.LDL
import Mathlib.Analysis.SpecialFunctions.Exponential
import Mathlib.LinearAlgebra.Matrix.Block
import Mathlib.Analysis.SpecialFunctions.Sqrt
import Mathlib.Data.Real.StarOrdered
import Mathlib.Tactic.Linarith
import Mathlib.Tactic.Ring
import Mathlib.Tactic.FieldSimp
import Mathlib.Tactic.Positivity

/-! Positive semi-definiteness of the covariance matrices. -/

namespace Lop

open Matrix Spec

variable {d n m : Nat}

/-- Gram matrices are positive semidefinite. -/
theorem psd_gram {κ : Type*} [Fintype κ] (f : Fin n → κ → ℝ) :
    (Matrix.of fun i j => ∑ k, f i k * f j k : Matrix (Fin n) (Fin n) ℝ).PosSemidef := by
  have h := posSemidef_self_mul_conjTranspose (Matrix.of f : Matrix (Fin n) κ ℝ)
  have e : (Matrix.of f : Matrix (Fin n) κ ℝ) * (Matrix.of f)ᴴ
      = Matrix.of fun i j => ∑ k, f i k * f j k := by
    ext i j
    simp [Matrix.mul_apply, conjTranspose_apply]
  rwa [e] at h

/-- A rank-one matrix. -/
theorem psd_rankOne (f : Fin n → ℝ) :
    (Matrix.of fun i j => f i * f j : Matrix (Fin n) (Fin n) ℝ).PosSemidef := by
  have := psd_gram (κ := Unit) fun i _ => f i
  simpa using this

theorem psd_const {c : ℝ} (hc : 0 ≤ c) :
    (Matrix.of fun _ _ => c : Matrix (Fin n) (Fin n) ℝ).PosSemidef := by
  have h := psd_rankOne (n := n) fun _ => Real.sqrt c
  simpa [Real.mul_self_sqrt hc] using h

theorem psd_mul {A B : Matrix (Fin n) (Fin n) ℝ} (hA : A.PosSemidef) (hB : B.PosSemidef) :
    (Matrix.of fun i j => A i j * B i j : Matrix (Fin n) (Fin n) ℝ).PosSemidef := hA.hadamard hB

theorem psd_add {A B : Matrix (Fin n) (Fin n) ℝ} (hA : A.PosSemidef) (hB : B.PosSemidef) :
    (Matrix.of fun i j => A i j + B i j : Matrix (Fin n) (Fin n) ℝ).PosSemidef := hA.add hB

theorem psd_pow {A : Matrix (Fin n) (Fin n) ℝ} (hA : A.PosSemidef) (k : Nat) :
    (Matrix.of fun i j => A i j ^ k : Matrix (Fin n) (Fin n) ℝ).PosSemidef := by
  induction k with
  | zero => simpa using psd_const (n := n) (c := 1) zero_le_one
  | succ k ih =>
    have := psd_mul ih hA
    simpa [pow_succ] using this

/-- The entrywise exponential of a positive semidefinite matrix is positive semidefinite. -/
theorem psd_exp {A : Matrix (Fin n) (Fin n) ℝ} (hA : A.PosSemidef) :
    (Matrix.of fun i j => Real.exp (A i j) : Matrix (Fin n) (Fin n) ℝ).PosSemidef := by
  refine PosSemidef.of_dotProduct_mulVec_nonneg ?_ fun x => ?_
  · ext i j
    have := hA.isHermitian.apply i j
    simp only [star_trivial] at this
    simp [conjTranspose_apply, this]
  · have hs : ∀ i j, HasSum (fun k : Nat => A i j ^ k / (k.factorial : ℝ)) (Real.exp (A i j)) := by
      intro i j
      rw [Real.exp_eq_exp_ℝ]
      exact NormedSpace.expSeries_div_hasSum_exp (A i j)
    have htot : HasSum
        (fun k : Nat => star x ⬝ᵥ ((Matrix.of fun i j => A i j ^ k / (k.factorial : ℝ)) *ᵥ x))
        (star x ⬝ᵥ ((Matrix.of fun i j => Real.exp (A i j)) *ᵥ x)) := by
      simp only [dotProduct, mulVec, Matrix.of_apply]
      exact hasSum_sum fun i _ => (hasSum_sum fun j _ => (hs i j).mul_right _).mul_left _
    refine htot.nonneg fun k => ?_
    have h1 := (psd_pow hA k).dotProduct_mulVec_nonneg x
    have e : star x ⬝ᵥ ((Matrix.of fun i j => A i j ^ k / (k.factorial : ℝ)) *ᵥ x)
        = (star x ⬝ᵥ ((Matrix.of fun i j => A i j ^ k) *ᵥ x)) / (k.factorial : ℝ) := by
      simp only [dotProduct, mulVec, Matrix.of_apply, Finset.mul_sum, Finset.sum_div]
      refine Finset.sum_congr rfl fun i _ => Finset.sum_congr rfl fun j _ => ?_
      ring
    rw [e]
    positivity

/-- The RBF kernel is positive semidefinite. -/
theorem psd_rbf (s l : ℝ) (X : Fin n → Pt d) :
    (Matrix.of fun i j => rbfEval s l (X i) (X j) : Matrix (Fin n) (Fin n) ℝ).PosSemidef := by
  have hg := psd_exp (psd_mul (psd_const (n := n) (c := 1 / (l * l)) (one_div_nonneg.2 (mul_self_nonneg l)))
    (psd_gram fun i => X i))
  have hr := psd_rankOne (n := n) fun i => s * Real.exp (-(∑ k, X i k * X i k) / (2 * l * l))
  have h := psd_mul hr hg
  have e : ∀ i j, rbfEval s l (X i) (X j) =
      (s * Real.exp (-(∑ k, X i k * X i k) / (2 * l * l))) *
        (s * Real.exp (-(∑ k, X j k * X j k) / (2 * l * l))) *
        Real.exp (1 / (l * l) * ∑ k, X i k * X j k) := by
    intro i j
    have e1 : sqDist (X i) (X j)
        = (∑ k, X i k * X i k) + (∑ k, X j k * X j k) - 2 * ∑ k, X i k * X j k := by
      rw [sqDist, Finset.mul_sum, ← Finset.sum_add_distrib, ← Finset.sum_sub_distrib]
      exact Finset.sum_congr rfl fun k _ => by ring
    have e2 : -sqDist (X i) (X j) / (2 * l * l)
        = (-(∑ k, X i k * X i k) / (2 * l * l)) + (-(∑ k, X j k * X j k) / (2 * l * l))
          + 1 / (l * l) * ∑ k, X i k * X j k := by
      rw [e1]
      by_cases hl : l = 0
      · simp [hl]
      · field_simp; ring
    rw [rbfEval, e2, Real.exp_add, Real.exp_add]
    ring
  have e' : (Matrix.of fun i j => rbfEval s l (X i) (X j) : Matrix (Fin n) (Fin n) ℝ) =
      Matrix.of fun i j => (s * Real.exp (-(∑ k, X i k * X i k) / (2 * l * l))) *
        (s * Real.exp (-(∑ k, X j k * X j k) / (2 * l * l))) *
        Real.exp (1 / (l * l) * ∑ k, X i k * X j k) := by
    ext i j; simp only [Matrix.of_apply]; exact e i j
  rw [e']
  exact h

theorem psd_linear (s b c : ℝ) (X : Fin n → Pt d) :
    (Matrix.of fun i j => linEval s b c (X i) (X j) : Matrix (Fin n) (Fin n) ℝ).PosSemidef := by
  have h := psd_add (psd_const (n := n) (c := b ^ 2) (by positivity))
    (psd_mul (psd_const (n := n) (c := s ^ 2) (by positivity))
      (psd_gram fun i k => X i k - c))
  exact h

theorem perExp_oneDim (l p : ℝ) (u v : Pt 1) :
    perExp l p u v = Real.exp (-1 / (l * l)) * Real.exp (1 / (l * l) *
      (Real.cos (2 * Real.pi * u 0 / p) * Real.cos (2 * Real.pi * v 0 / p) +
        Real.sin (2 * Real.pi * u 0 / p) * Real.sin (2 * Real.pi * v 0 / p))) := by
  rw [← Real.cos_sub, ← Real.exp_add, perExp]
  congr 1
  have h1 : Real.sin (Real.pi * l1Dist u v / p) * Real.sin (Real.pi * l1Dist u v / p)
      = Real.sin (Real.pi * (u 0 - v 0) / p) * Real.sin (Real.pi * (u 0 - v 0) / p) := by
    have : l1Dist u v = |u 0 - v 0| := by simp [l1Dist]
    rw [this]
    rcases abs_cases (u 0 - v 0) with ⟨h, _⟩ | ⟨h, _⟩
    · rw [h]
    · rw [h]
      have : Real.pi * -(u 0 - v 0) / p = -(Real.pi * (u 0 - v 0) / p) := by ring
      rw [this, Real.sin_neg]
      ring
  have h2 : 2 * Real.pi * u 0 / p - 2 * Real.pi * v 0 / p = 2 * (Real.pi * (u 0 - v 0) / p) := by
    ring
  rw [h2, Real.cos_two_mul, mul_assoc, h1]
  have h3 := Real.sin_sq_add_cos_sq (Real.pi * (u 0 - v 0) / p)
  have h4 : Real.cos (Real.pi * (u 0 - v 0) / p) ^ 2
      = 1 - Real.sin (Real.pi * (u 0 - v 0) / p) * Real.sin (Real.pi * (u 0 - v 0) / p) := by
    linarith [sq (Real.sin (Real.pi * (u 0 - v 0) / p))]
  rw [h4]
  ring

theorem psd_periodic (s l p : ℝ) (X : Fin n → Pt 1) :
    (Matrix.of fun i j => perEval s l p (X i) (X j) : Matrix (Fin n) (Fin n) ℝ).PosSemidef := by
  have hc := psd_rankOne (n := n) fun i => Real.cos (2 * Real.pi * X i 0 / p)
  have hsn := psd_rankOne (n := n) fun i => Real.sin (2 * Real.pi * X i 0 / p)
  have h := psd_mul (psd_const (n := n) (c := s * s) (mul_self_nonneg s))
    (psd_mul (psd_const (n := n) (c := Real.exp (-1 / (l * l))) (Real.exp_pos _).le)
      (psd_exp (psd_mul (psd_const (n := n) (c := 1 / (l * l)) (one_div_nonneg.2 (mul_self_nonneg l))) (psd_add hc hsn))))
  have e : (Matrix.of fun i j => perEval s l p (X i) (X j) : Matrix (Fin n) (Fin n) ℝ) =
      Matrix.of fun i j => s * s * (Real.exp (-1 / (l * l)) * Real.exp (1 / (l * l) *
      (Real.cos (2 * Real.pi * X i 0 / p) * Real.cos (2 * Real.pi * X j 0 / p) +
        Real.sin (2 * Real.pi * X i 0 / p) * Real.sin (2 * Real.pi * X j 0 / p)))) := by
    ext i j
    simp only [Matrix.of_apply, perEval, perExp_oneDim]
  rw [e]
  exact h

/-- Conditioning on the zero point keeps the RBF kernel positive semidefinite. -/
theorem psd_zeroed (s l : ℝ) (hs : s ≠ 0) (z : Pt d) (X : Fin n → Pt d) :
    (Matrix.of fun i j => rbfEval s l (X i) (X j)
        - rbfEval s l (X i) z * rbfEval s l z (X j) / (s * s) :
      Matrix (Fin n) (Fin n) ℝ).PosSemidef := by
  have hbig := psd_rbf s l (Fin.snoc (α := fun _ => Pt d) X z)
  let P : Matrix (Fin n) (Fin (n + 1)) ℝ := Matrix.of fun i =>
    Fin.snoc (α := fun _ => ℝ) (fun k => if i = k then 1 else 0) (-(rbfEval s l (X i) z) / (s * s))
  have h := hbig.mul_mul_conjTranspose_same P
  have hzz : rbfEval s l z z = s * s := by simp [rbfEval, sqDist]
  have e : P * (Matrix.of fun i j => rbfEval s l (Fin.snoc (α := fun _ => Pt d) X z i)
      (Fin.snoc (α := fun _ => Pt d) X z j)) * Pᴴ
      = Matrix.of fun i j => rbfEval s l (X i) (X j)
        - rbfEval s l (X i) z * rbfEval s l z (X j) / (s * s) := by
    have hsym : ∀ u v : Pt d, rbfEval s l u v = rbfEval s l v u := by
      intro u v
      have : sqDist u v = sqDist v u := Finset.sum_congr rfl fun k _ => by ring
      rw [rbfEval, rbfEval, this]
    ext i j
    simp only [Matrix.mul_apply, Matrix.of_apply, conjTranspose_apply, star_trivial, P,
      Fin.sum_univ_castSucc, Fin.snoc_castSucc, Fin.snoc_last, ite_mul, mul_ite, one_mul, mul_one,
      zero_mul, mul_zero, Finset.sum_ite_eq, Finset.mem_univ, if_true, hzz]
    rw [hsym z (X j)]
    field_simp
    ring
  rw [e] at h
  exact h

/-! ## The matrices returned by `cov` -/

theorem noiseTerm_self (noise : ℝ) (X : Fin n → Pt d) :
    noiseTerm noise X X = noise • (1 : Matrix (Fin n) (Fin n) ℝ) := by
  ext i j
  simp only [noiseTerm, Matrix.of_apply, Matrix.smul_apply, Matrix.one_apply, smul_eq_mul]
  by_cases h : i = j
  · subst h
    have : 0 < n := i.pos
    simp [this]
  · have hne : i.val ≠ j.val := fun he => h (Fin.ext he)
    simp [h, hne]

/-- What `RBF_kern.cov(X, X)` is. -/
theorem rbfCov_self {s l noise : ℝ} {X : Fin n → Pt d} (hn : 0 < n) :
    rbfCov s l noise X X = .ok ((Matrix.of fun i j => rbfEval s l (X i) (X j))
      + noise • (1 : Matrix (Fin n) (Fin n) ℝ)) := by
  unfold rbfCov
  rw [if_neg (by omega), noiseTerm_self]
  congr 1

theorem psd_noise {noise : ℝ} (h : 0 ≤ noise) :
    (noise • (1 : Matrix (Fin n) (Fin n) ℝ)).PosSemidef := PosSemidef.one.smul h

theorem noiseTerm_zero_row {noise : ℝ} {X : Fin n → Pt d} {z : Pt d} (hn : 0 < n)
    (h : ¬ (n = 1 ∧ ∀ i, X i = z)) (i : Fin n) (j : Fin 1) :
    noiseTerm noise X (fun _ : Fin 1 => z) i j = 0 := by
  simp only [noiseTerm, Matrix.of_apply]
  rw [if_neg]
  rintro ⟨h1, ⟨_, _, h2⟩, _⟩
  apply h
  refine ⟨h1, fun k => ?_⟩
  subst h1
  have : k = ⟨0, hn⟩ := Subsingleton.elim _ _
  rw [this]; exact h2

theorem noiseTerm_zero_col {noise : ℝ} {X : Fin n → Pt d} {z : Pt d} (hn : 0 < n)
    (h : ¬ (n = 1 ∧ ∀ i, X i = z)) (i : Fin 1) (j : Fin n) :
    noiseTerm noise (fun _ : Fin 1 => z) X i j = 0 := by
  simp only [noiseTerm, Matrix.of_apply]
  rw [if_neg]
  rintro ⟨h1, ⟨_, _, h2⟩, _⟩
  apply h
  refine ⟨h1.symm, fun k => ?_⟩
  subst h1
  have : k = ⟨0, hn⟩ := Subsingleton.elim _ _
  rw [this]; exact h2.symm

/-- What `RBF_kern_zeroed.cov(X, X)` is when the zero point is not the only point. -/
theorem zeroedCov_self {s l noise : ℝ} {z : Option (Pt d)} {X : Fin n → Pt d} (hn : 0 < n)
    (hz : ¬ (n = 1 ∧ ∀ i, X i = zeroPt z)) :
    zeroedCov s l z noise X X = .ok ((Matrix.of fun i j => rbfEval s l (X i) (X j)
        - rbfEval s l (X i) (zeroPt z) * rbfEval s l (zeroPt z) (X j) / (s * s))
      + noise • (1 : Matrix (Fin n) (Fin n) ℝ)) := by
  unfold zeroedCov
  rw [if_neg (by omega)]
  have h1 : rbfCov s l noise X (fun _ : Fin 1 => zeroPt z) = .ok (Matrix.of fun i _ =>
      rbfEval s l (X i) (zeroPt z)) := by
    unfold rbfCov
    rw [if_neg (by omega)]
    congr 1
    ext i j
    simp only [Matrix.of_apply]
    rw [noiseTerm_zero_row hn hz, add_zero]
  have h2 : rbfCov s l noise (fun _ : Fin 1 => zeroPt z) X = .ok (Matrix.of fun _ j =>
      rbfEval s l (zeroPt z) (X j)) := by
    unfold rbfCov
    rw [if_neg (by omega)]
    congr 1
    ext i j
    simp only [Matrix.of_apply]
    rw [noiseTerm_zero_col hn hz, add_zero]
  simp only [rbfCov_self hn, h1, h2]
  congr 1
  ext i j
  simp only [Matrix.add_apply, Matrix.of_apply]
  ring

/-- PSD for the leaves. -/
theorem leaf_psd (k : KLeaf ℝ (Pt d)) (X : Fin n → Pt d) (hn : 0 < n) (hok : LeafOK (d = 1) k)
    (hz : ZeroNotAlone X k) : ∃ c, k.cov X X = .ok c ∧ c.PosSemidef := by
  cases k with
  | rbf s l noise => exact ⟨_, rbfCov_self hn, (psd_rbf s l X).add (psd_noise hok.2)⟩
  | zeroed s l z noise =>
    exact ⟨_, zeroedCov_self hn hz, (psd_zeroed s l hok.1 _ X).add (psd_noise hok.2.2)⟩
  | linear s b c => exact ⟨_, rfl, psd_linear s b c X⟩
  | periodic s l p =>
    obtain ⟨_, _, hd⟩ := hok
    subst hd
    exact ⟨_, rfl, psd_periodic s l p X⟩

theorem expr_psd (k : KExpr ℝ (Pt d)) (X : Fin n → Pt d) (hn : 0 < n)
    (hok : AllLeaves (LeafOK (d = 1)) k) (hz : AllLeaves (ZeroNotAlone X) k) :
    ∃ c, k.cov X X = .ok c ∧ c.PosSemidef := by
  induction k with
  | leaf k => exact leaf_psd k X hn hok hz
  | dual op a b iha ihb =>
    obtain ⟨ca, ha, pa⟩ := iha hok.1 hz.1
    obtain ⟨cb, hb, pb⟩ := ihb hok.2 hz.2
    cases op with
    | add => exact ⟨_, by simp only [KExpr.cov, ha, hb], psd_add pa pb⟩
    | mul => exact ⟨_, by simp only [KExpr.cov, ha, hb], psd_mul pa pb⟩

/-- On the diagonal `cov` is at least the pointwise variance. -/
theorem expr_diag (k : KExpr ℝ (Pt d)) (X : Fin n → Pt d)
    (hok : AllLeaves (LeafOK (d = 1)) k) (hnz : AllLeaves NotZeroed k)
    {c} (hc : k.cov X X = .ok c) (hn : 0 < n) (i : Fin n) :
    k.eval (X i) (X i) ≤ c i i ∧ 0 ≤ k.eval (X i) (X i) := by
  induction k generalizing c with
  | leaf k =>
    cases k with
    | rbf s l noise =>
      simp only [KExpr.cov, KLeaf.cov, rbfCov_self hn, Except.ok.injEq] at hc
      subst hc
      have := hok.2
      simp only [KExpr.eval, KLeaf.eval, Matrix.add_apply, Matrix.of_apply, Matrix.smul_apply,
        Matrix.one_apply_eq, smul_eq_mul, mul_one]
      exact ⟨by linarith, mul_nonneg (mul_self_nonneg s) (Real.exp_pos _).le⟩
    | zeroed => exact absurd hnz (by simp [AllLeaves, NotZeroed])
    | linear s b c =>
      simp only [KExpr.cov, KLeaf.cov, Except.ok.injEq] at hc
      subst hc
      refine ⟨le_rfl, ?_⟩
      have : 0 ≤ ∑ k, (X i k - c) * (X i k - c) := Finset.sum_nonneg fun _ _ => mul_self_nonneg _
      simp only [KExpr.eval, KLeaf.eval, linEval]
      positivity
    | periodic s l p =>
      simp only [KExpr.cov, KLeaf.cov, Except.ok.injEq] at hc
      subst hc
      exact ⟨le_rfl, mul_nonneg (mul_self_nonneg s) (Real.exp_pos _).le⟩
  | dual op a b iha ihb =>
    obtain ⟨ca, ha, _⟩ : ∃ ca, a.cov X X = .ok ca ∧ True := by
      cases h : a.cov X X with
      | ok ca => exact ⟨ca, rfl, trivial⟩
      | error e => simp [KExpr.cov, h] at hc
    obtain ⟨cb, hb, _⟩ : ∃ cb, b.cov X X = .ok cb ∧ True := by
      cases h : b.cov X X with
      | ok cb => exact ⟨cb, rfl, trivial⟩
      | error e => simp [KExpr.cov, ha, h] at hc
    obtain ⟨h1, h2⟩ := iha hok.1 hnz.1 ha
    obtain ⟨h3, h4⟩ := ihb hok.2 hnz.2 hb
    cases op with
    | add =>
      simp only [KExpr.cov, ha, hb, Except.ok.injEq] at hc
      subst hc
      simp only [KExpr.eval]
      exact ⟨add_le_add h1 h3, add_nonneg h2 h4⟩
    | mul =>
      simp only [KExpr.cov, ha, hb, Except.ok.injEq] at hc
      subst hc
      simp only [KExpr.eval]
      exact ⟨mul_le_mul h1 h3 h4 (h2.trans h1), mul_nonneg h2 h4⟩

theorem zeroNotAlone_of_notZeroed (X : Fin n → Pt d) (k : KExpr ℝ (Pt d))
    (h : AllLeaves NotZeroed k) : AllLeaves (ZeroNotAlone X) k := by
  induction k with
  | leaf k => cases k <;> simp_all [AllLeaves, NotZeroed, ZeroNotAlone]
  | dual op a b iha ihb => exact ⟨iha h.1, ihb h.2⟩

/-- If `A - e I` and `B` are PSD and `B` has diagonal at least `δ`, then `A ∘ B - e δ I` is PSD. -/
theorem psd_hadamard_shift {A B : Matrix (Fin n) (Fin n) ℝ} {e δ : ℝ} (he : 0 ≤ e)
    (hA : (A - e • (1 : Matrix (Fin n) (Fin n) ℝ)).PosSemidef) (hB : B.PosSemidef)
    (hδ : ∀ i, δ ≤ B i i) :
    ((Matrix.of fun i j => A i j * B i j) - (e * δ) • (1 : Matrix (Fin n) (Fin n) ℝ)).PosSemidef := by
  have h1 := psd_mul hA hB
  have h2 : (Matrix.diagonal fun i => e * (B i i - δ)).PosSemidef :=
    PosSemidef.diagonal fun i => mul_nonneg he (sub_nonneg.2 (hδ i))
  have h3 := h1.add h2
  convert h3 using 1
  ext i j
  by_cases hij : i = j
  · subst hij
    simp only [Matrix.sub_apply, Matrix.of_apply, Matrix.smul_apply, Matrix.one_apply_eq,
      smul_eq_mul, mul_one, Matrix.add_apply, Matrix.diagonal_apply_eq]
    ring
  · simp [Matrix.sub_apply, Matrix.add_apply, Matrix.one_apply_ne hij,
      Matrix.diagonal_apply_ne _ hij]

theorem expr_shift (k : KExpr ℝ (Pt d)) (X : Fin n → Pt d) (hn : 0 < n)
    (hok : AllLeaves (LeafOK (d = 1)) k) (hnz : AllLeaves NotZeroed k) (hnoisy : Noisy X k) :
    ∃ c, ∃ e : ℝ, k.cov X X = .ok c ∧ 0 < e ∧ (c - e • (1 : Matrix (Fin n) (Fin n) ℝ)).PosSemidef := by
  have key : ∀ b : KExpr ℝ (Pt d), AllLeaves (LeafOK (d = 1)) b → AllLeaves NotZeroed b →
      (∀ i, 0 < b.eval (X i) (X i)) →
      ∃ cb δ, b.cov X X = .ok cb ∧ cb.PosSemidef ∧ 0 < δ ∧ ∀ i, δ ≤ cb i i := by
    intro b hok hnz hpos
    obtain ⟨cb, hb, pb⟩ := expr_psd b X hn hok (zeroNotAlone_of_notZeroed X b hnz)
    have : Nonempty (Fin n) := ⟨⟨0, hn⟩⟩
    obtain ⟨i₀, hi₀⟩ := Finite.exists_min fun i => cb i i
    exact ⟨cb, cb i₀ i₀, hb, pb,
      lt_of_lt_of_le (hpos i₀) (expr_diag b X hok hnz hb hn i₀).1, hi₀⟩
  induction hnoisy with
  | rbf hnoise =>
    rename_i s l noise
    refine ⟨_, noise, rbfCov_self hn, hnoise, ?_⟩
    rw [add_sub_cancel_right]
    exact psd_rbf s l X
  | addLeft _ ih =>
    obtain ⟨ca, e, ha, he, pa⟩ := ih hok.1 hnz.1
    obtain ⟨cb, hb, pb⟩ := expr_psd _ X hn hok.2 (zeroNotAlone_of_notZeroed X _ hnz.2)
    refine ⟨_, e, by simp only [KExpr.cov, ha, hb]; rfl, he, ?_⟩
    have := pa.add pb
    convert this using 1
    ext i j
    simp only [Matrix.sub_apply, Matrix.add_apply, Matrix.of_apply]
    ring
  | addRight _ ih =>
    obtain ⟨cb, e, hb, he, pb⟩ := ih hok.2 hnz.2
    obtain ⟨ca, ha, pa⟩ := expr_psd _ X hn hok.1 (zeroNotAlone_of_notZeroed X _ hnz.1)
    refine ⟨_, e, by simp only [KExpr.cov, ha, hb]; rfl, he, ?_⟩
    have := pa.add pb
    convert this using 1
    ext i j
    simp only [Matrix.sub_apply, Matrix.add_apply, Matrix.of_apply]
    ring
  | mulLeft _ hpos ih =>
    obtain ⟨ca, e, ha, he, pa⟩ := ih hok.1 hnz.1
    obtain ⟨cb, δ, hb, pb, hδ, hle⟩ := key _ hok.2 hnz.2 hpos
    exact ⟨_, e * δ, by simp only [KExpr.cov, ha, hb], mul_pos he hδ,
      psd_hadamard_shift he.le pa pb hle⟩
  | mulRight _ hpos ih =>
    obtain ⟨cb, e, hb, he, pb⟩ := ih hok.2 hnz.2
    obtain ⟨ca, δ, ha, pa, hδ, hle⟩ := key _ hok.1 hnz.1 hpos
    refine ⟨_, e * δ, by simp only [KExpr.cov, ha, hb]; rfl, mul_pos he hδ, ?_⟩
    have := psd_hadamard_shift he.le pb pa hle
    convert this using 1
    ext i j
    simp only [Matrix.sub_apply, Matrix.of_apply]
    ring

theorem posDef_of_shift {c : Matrix (Fin n) (Fin n) ℝ} {e : ℝ} (he : 0 < e)
    (h : (c - e • (1 : Matrix (Fin n) (Fin n) ℝ)).PosSemidef) : c.PosDef := by
  have h2 : (e • (1 : Matrix (Fin n) (Fin n) ℝ)).PosDef := PosDef.one.smul he
  have := h2.add_posSemidef h
  rwa [add_sub_cancel] at this

/-- Positive definite matrices have a Cholesky factor. -/
theorem exists_cholesky {K : Matrix (Fin n) (Fin n) ℝ} (hK : K.PosDef) : ∃ L, IsCholesky K L := by
  have hinv : Invertible (LDL.lowerInv hK) := LDL.invertibleLowerInv hK
  have htri : (LDL.lowerInv hK).BlockTriangular OrderDual.toDual := fun i j hij =>
    LDL.lowerInv_triangular hK hij
  have htri' : (LDL.lower hK).BlockTriangular OrderDual.toDual :=
    blockTriangular_inv_of_blockTriangular htri
  have hD : (LDL.diag hK).PosDef := by
    rw [LDL.diag_eq_lowerInv_conj]
    refine hK.mul_mul_conjTranspose_same ?_
    exact Matrix.vecMul_injective_of_isUnit (isUnit_of_invertible _)
  have hd : ∀ i, 0 < LDL.diagEntries hK i := posDef_diagonal_iff.1 hD
  have hdet : (LDL.lower hK).det ≠ 0 := by
    have : IsUnit (LDL.lower hK) := by
      rw [LDL.lower]
      exact (Matrix.isUnit_nonsing_inv_iff).2 (isUnit_of_invertible _)
    exact ((Matrix.isUnit_iff_isUnit_det _).1 this).ne_zero
  have hdiag : ∀ i, LDL.lower hK i i ≠ 0 := by
    intro i hi
    apply hdet
    rw [Matrix.det_of_isLowerTriangular _ htri']
    exact Finset.prod_eq_zero (Finset.mem_univ i) hi
  let sg : Fin n → ℝ := fun i => if 0 < LDL.lower hK i i then 1 else -1
  let Q : Matrix (Fin n) (Fin n) ℝ := diagonal fun i => sg i * Real.sqrt (LDL.diagEntries hK i)
  have hsg : ∀ i, sg i * sg i = 1 := fun i => by simp only [sg]; split <;> norm_num
  have hQ : Q * Qᵀ = LDL.diag hK := by
    simp only [Q, diagonal_transpose, diagonal_mul_diagonal, LDL.diag]
    congr 1
    funext i
    have := Real.mul_self_sqrt (hd i).le
    calc sg i * Real.sqrt (LDL.diagEntries hK i) * (sg i * Real.sqrt (LDL.diagEntries hK i))
        = (sg i * sg i) * (Real.sqrt (LDL.diagEntries hK i) * Real.sqrt (LDL.diagEntries hK i)) := by
          ring
      _ = _ := by rw [hsg, this, one_mul]
  refine ⟨LDL.lower hK * Q, fun i j hij => ?_, fun i => ?_, ?_⟩
  · simp only [Q, mul_diagonal]
    rw [htri' hij, zero_mul]
  · simp only [Q, mul_diagonal]
    have h1 := Real.sqrt_pos.2 (hd i)
    have h2 : 0 < LDL.lower hK i i * sg i := by
      simp only [sg]
      split
      · linarith
      · rename_i h
        have := lt_of_le_of_ne (not_lt.1 h) (hdiag i)
        linarith
    have := mul_pos h2 h1
    linarith [mul_assoc (LDL.lower hK i i) (sg i) (Real.sqrt (LDL.diagEntries hK i))]
  · rw [transpose_mul, Matrix.mul_assoc, ← Matrix.mul_assoc Q, hQ]
    have := LDL.lower_conj_diag hK
    rw [conjTranspose_eq_transpose_of_trivial, Matrix.mul_assoc] at this
    exact this

end Lop
