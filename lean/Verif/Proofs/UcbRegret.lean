import Verif.Spec.UcbRegret
import Verif.Proofs.GP
import Verif.Props.GP
import Verif.Props.Select
import Mathlib.NumberTheory.Harmonic.Bounds
import Mathlib.Algebra.Order.Chebyshev

/-! # Helper lemmas for learning with upper confidence bounds -/

namespace Lop

open Spec Matrix

variable {d n t : Nat}

/-- The posterior variance is the smallest error of a linear predictor. -/
theorem var_le_weights {D : Matrix (Fin t) (Fin t) ℝ} (hD : D.PosDef) (a : ℝ) (b w : Fin t → ℝ) :
    a - b ⬝ᵥ (D⁻¹ *ᵥ b) ≤ a - 2 * (w ⬝ᵥ b) + w ⬝ᵥ (D *ᵥ w) := by
  have hu : IsUnit D.det := (Matrix.isUnit_iff_isUnit_det _).1 hD.isUnit
  have hsym : Dᵀ = D := by
    have := hD.isHermitian.eq
    rwa [conjTranspose_eq_transpose_of_trivial] at this
  have h := hD.posSemidef.dotProduct_mulVec_nonneg (w - D⁻¹ *ᵥ b)
  have e1 : D *ᵥ (D⁻¹ *ᵥ b) = b := by rw [mulVec_mulVec, mul_nonsing_inv _ hu, one_mulVec]
  have e2 : (D⁻¹ *ᵥ b) ⬝ᵥ (D *ᵥ w) = w ⬝ᵥ b := by
    rw [dotProduct_mulVec, ← mulVec_transpose, hsym, e1, dotProduct_comm]
  simp only [star_trivial, mulVec_sub, sub_dotProduct, dotProduct_sub, e1, e2] at h
  have e3 : (D⁻¹ *ᵥ b) ⬝ᵥ b = b ⬝ᵥ (D⁻¹ *ᵥ b) := dotProduct_comm _ _
  linarith

/-- Sum of an error bounded by the kernel and one bounded by the noise. -/
theorem sq_add_le {u v B2 E Q R : ℝ} (hB : 0 ≤ B2) (hE : 0 ≤ E) (hQ : 0 ≤ Q) (hR : 0 ≤ R) (hu : u ^ 2 ≤ B2 * Q)
    (hv : v ^ 2 ≤ E * R) : (u + v) ^ 2 ≤ (B2 + E) * (Q + R) := by
  have h1 : (u * v) ^ 2 ≤ ((B2 * R + E * Q) / 2) ^ 2 := by
    have : (u * v) ^ 2 ≤ (B2 * Q) * (E * R) := by
      rw [mul_pow]
      exact mul_le_mul hu hv (sq_nonneg _) (by positivity)
    nlinarith [sq_nonneg (B2 * R - E * Q)]
  have h2 : u * v ≤ (B2 * R + E * Q) / 2 := abs_le_of_sq_le_sq' h1 (by positivity) |>.2
  nlinarith

/-- The deviation of a function from the prediction, squared. -/
theorem confidence_core {K : Matrix (Fin t) (Fin t) ℝ} {s : Fin t → ℝ} (hs : ∀ j, 0 < s j) (hD : (K + diagonal s).PosDef)
    {a B fx : ℝ} {b g y : Fin t → ℝ}
    (hball : ∀ w : Fin t → ℝ, (fx - w ⬝ᵥ g) ^ 2 ≤ B ^ 2 * (a - 2 * (w ⬝ᵥ b) + w ⬝ᵥ (K *ᵥ w)))
    (hpsd : ∀ w : Fin t → ℝ, 0 ≤ a - 2 * (w ⬝ᵥ b) + w ⬝ᵥ (K *ᵥ w)) :
    (fx - b ⬝ᵥ ((K + diagonal s)⁻¹ *ᵥ y)) ^ 2 ≤
      (B ^ 2 + ∑ j, (y j - g j) ^ 2 / s j) * (a - b ⬝ᵥ ((K + diagonal s)⁻¹ *ᵥ b)) := by
  set D := K + diagonal s with hDd
  set w := D⁻¹ *ᵥ b with hw
  have hu : IsUnit D.det := (Matrix.isUnit_iff_isUnit_det _).1 hD.isUnit
  have hsym : (D⁻¹)ᵀ = D⁻¹ := by
    have := hD.isHermitian.eq
    rw [conjTranspose_eq_transpose_of_trivial] at this
    rw [transpose_nonsing_inv, this]
  have e0 : b ⬝ᵥ (D⁻¹ *ᵥ y) = w ⬝ᵥ y := by
    rw [dotProduct_mulVec, ← mulVec_transpose, hsym]
  have e1 : D *ᵥ w = b := by rw [hw, mulVec_mulVec, mul_nonsing_inv _ hu, one_mulVec]
  have e2 : b ⬝ᵥ w = w ⬝ᵥ b := dotProduct_comm _ _
  have e3 : w ⬝ᵥ (D *ᵥ w) = w ⬝ᵥ (K *ᵥ w) + ∑ j, s j * w j ^ 2 := by
    rw [hDd, add_mulVec, dotProduct_add]
    congr 1
    simp only [dotProduct, mulVec_diagonal]
    exact Finset.sum_congr rfl fun j _ => by ring
  have hvar : a - b ⬝ᵥ w = (a - 2 * (w ⬝ᵥ b) + w ⬝ᵥ (K *ᵥ w)) + ∑ j, s j * w j ^ 2 := by
    rw [e1] at e3
    linarith
  have hcs : (w ⬝ᵥ (y - g)) ^ 2 ≤ (∑ j, (y j - g j) ^ 2 / s j) * ∑ j, s j * w j ^ 2 := by
    have h := Finset.sum_mul_sq_le_sq_mul_sq Finset.univ (fun j => (y j - g j) / Real.sqrt (s j))
      (fun j => Real.sqrt (s j) * w j)
    have ha : ∑ j, (y j - g j) / Real.sqrt (s j) * (Real.sqrt (s j) * w j) = w ⬝ᵥ (y - g) := by
      simp only [dotProduct, Pi.sub_apply]
      refine Finset.sum_congr rfl fun j _ => ?_
      have : Real.sqrt (s j) ≠ 0 := (Real.sqrt_pos.2 (hs j)).ne'
      field_simp
    have hb : ∑ j, ((y j - g j) / Real.sqrt (s j)) ^ 2 = ∑ j, (y j - g j) ^ 2 / s j :=
      Finset.sum_congr rfl fun j _ => by rw [div_pow, Real.sq_sqrt (hs j).le]
    have hc : ∑ j, (Real.sqrt (s j) * w j) ^ 2 = ∑ j, s j * w j ^ 2 :=
      Finset.sum_congr rfl fun j _ => by rw [mul_pow, Real.sq_sqrt (hs j).le]
    rwa [ha, hb, hc] at h
  rw [e0, hvar]
  have hneg : (-(w ⬝ᵥ (y - g))) ^ 2 ≤ (∑ j, (y j - g j) ^ 2 / s j) * ∑ j, s j * w j ^ 2 := by rwa [neg_sq]
  have h := sq_add_le (sq_nonneg B) (Finset.sum_nonneg fun j _ => div_nonneg (sq_nonneg (y j - g j)) (hs j).le) (hpsd w)
    (Finset.sum_nonneg fun j _ => mul_nonneg (hs j).le (sq_nonneg (w j))) (hball w) hneg
  have e4 : fx - w ⬝ᵥ g + -(w ⬝ᵥ (y - g)) = fx - w ⬝ᵥ y := by
    rw [dotProduct_sub]; ring
  rwa [e4] at h

/-- The matrix of a kernel at any points is positive semidefinite. -/
theorem cov_self_psd (k : KExpr ℝ (Pt d)) (hok : AllLeaves (LeafOK (d = 1)) k) (hq : AllLeaves NoNoise k) (X : Fin n → Pt d)
    (hn : 0 < n) {c} (hc : k.cov X X = .ok c) : c.PosSemidef := by
  obtain ⟨J, hJ, hb⟩ := joint_psd k hok (quiet_of_noNoise k hq) X X hn hc hc hc hn
  have := hJ.submatrix (Fin.castAdd n)
  convert this using 1
  ext i j
  simp [hb.a]

/-- Noise-free kernels: one function of two points, symmetric, with the ball and positivity in terms of it. -/
theorem kernel_fn (k : KExpr ℝ (Pt d)) (hok : AllLeaves (LeafOK (d = 1)) k) (hq : AllLeaves NoNoise k) :
    ∃ g : Pt d → Pt d → ℝ,
      (∀ {n m : Nat} (X : Fin n → Pt d) (Y : Fin m → Pt d) c, k.cov X Y = .ok c → ∀ i j, c i j = g (X i) (Y j)) ∧
      (∀ x y, g x y = g y x) ∧
      (∀ (x : Pt d) {t : Nat} (Y : Fin t → Pt d) (w : Fin t → ℝ),
        0 ≤ g x x - 2 * (w ⬝ᵥ fun j => g x (Y j)) + w ⬝ᵥ ((Matrix.of fun i j => g (Y i) (Y j)) *ᵥ w)) ∧
      ∀ (B : ℝ) (f : Pt d → ℝ), InBall k B f → ∀ (x : Pt d) {t : Nat} (Y : Fin t → Pt d) (w : Fin t → ℝ),
        (f x - w ⬝ᵥ fun j => f (Y j)) ^ 2 ≤
          B ^ 2 * (g x x - 2 * (w ⬝ᵥ fun j => g x (Y j)) + w ⬝ᵥ ((Matrix.of fun i j => g (Y i) (Y j)) *ᵥ w)) := by
  obtain ⟨g, hg⟩ := cov_pointwise k hq
  have hsym : ∀ x y, g x y = g y x := by
    intro x y
    obtain ⟨c, hc⟩ := cov_returns k ![x, y] ![x, y] (by norm_num)
    have h := (cov_self_psd k hok hq _ (by norm_num) hc).isHermitian.apply 0 1
    rw [hg _ _ c hc, hg _ _ c hc] at h
    simpa using h.symm
  have key : ∀ (x : Pt d) {t : Nat} (Y : Fin t → Pt d) (w : Fin t → ℝ) (c : Matrix (Fin (t + 1)) (Fin (t + 1)) ℝ),
      k.cov (Fin.cons x Y : Fin (t + 1) → Pt d) (Fin.cons x Y : Fin (t + 1) → Pt d) = .ok c →
      ∑ i, ∑ j, (Fin.cons 1 (-w) : Fin (t + 1) → ℝ) i * (Fin.cons 1 (-w) : Fin (t + 1) → ℝ) j * c i j =
        g x x - 2 * (w ⬝ᵥ fun j => g x (Y j)) + w ⬝ᵥ ((Matrix.of fun i j => g (Y i) (Y j)) *ᵥ w) := by
    intro x t Y w c hc
    simp only [Fin.sum_univ_succ, hg _ _ c hc, Fin.cons_zero, Fin.cons_succ, Pi.neg_apply, one_mul, mul_one]
    simp only [dotProduct, mulVec, Matrix.of_apply, Finset.sum_add_distrib, Finset.mul_sum]
    have h1 : ∀ i, g (Y i) x = g x (Y i) := fun i => hsym _ _
    simp only [h1]
    have h2 : ∑ i, -w i * g x (Y i) = -∑ i, w i * g x (Y i) := by
      rw [← Finset.sum_neg_distrib]; exact Finset.sum_congr rfl fun _ _ => by ring
    have h3 : ∑ i, ∑ j, -w i * -w j * g (Y i) (Y j) = ∑ i, ∑ j, w i * (g (Y i) (Y j) * w j) :=
      Finset.sum_congr rfl fun _ _ => Finset.sum_congr rfl fun _ _ => by ring
    have h4 : ∑ i, 2 * (w i * g x (Y i)) = 2 * ∑ i, w i * g x (Y i) := by rw [Finset.mul_sum]
    rw [h2, h3, h4]
    ring
  refine ⟨g, hg, hsym, ?_, ?_⟩
  · intro x t Y w
    obtain ⟨c, hc⟩ := cov_returns k (Fin.cons x Y : Fin (t + 1) → Pt d) (Fin.cons x Y : Fin (t + 1) → Pt d) (by omega)
    rw [← key x Y w c hc]
    have h := (cov_self_psd k hok hq _ (by omega) hc).dotProduct_mulVec_nonneg (Fin.cons 1 (-w) : Fin (t + 1) → ℝ)
    simp only [star_trivial, dotProduct, mulVec, Finset.mul_sum] at h
    refine le_of_le_of_eq h ?_
    exact Finset.sum_congr rfl fun _ _ => Finset.sum_congr rfl fun _ _ => by ring
  · intro B f hB x t Y w
    obtain ⟨c, hc⟩ := cov_returns k (Fin.cons x Y : Fin (t + 1) → Pt d) (Fin.cons x Y : Fin (t + 1) → Pt d) (by omega)
    rw [← key x Y w c hc]
    have h := hB _ _ c hc (Fin.cons 1 (-w) : Fin (t + 1) → ℝ)
    convert h using 2
    simp only [Fin.sum_univ_succ, Fin.cons_zero, Fin.cons_succ, Pi.neg_apply, one_mul, dotProduct]
    rw [sub_eq_add_neg, ← Finset.sum_neg_distrib]
    congr 1
    exact Finset.sum_congr rfl fun _ _ => by ring

/-- A prediction in terms of the kernel function. -/
theorem gp_entries {k : KExpr ℝ (Pt d)} {g : Pt d → Pt d → ℝ}
    (hg : ∀ {n m : Nat} (X : Fin n → Pt d) (Y : Fin m → Pt d) c, k.cov X Y = .ok c → ∀ i j, c i j = g (X i) (Y j))
    {mean : Pt d → ℝ} {rows : List (Pt d × ℝ × ℝ)} {X : Fin n → Pt d} {p : GPPred n}
    (h : gpRegress (kcov k) mean (some rows) X = .ok p) :
    ∃ D : Matrix (Fin rows.length) (Fin rows.length) ℝ,
      D = (Matrix.of fun i j => g (rows.get i).1 (rows.get j).1) + diagonal (fun j => (rows.get j).2.2) ∧ D.PosDef ∧
      (∀ i, p.mu i = (fun j => g (X i) (rows.get j).1) ⬝ᵥ (D⁻¹ *ᵥ fun j => (rows.get j).2.1) + mean (X i)) ∧
      (∀ i, p.sigma i = max 0 (p.cov i i)) ∧
      ∀ i, p.cov i i = g (X i) (X i) - (fun j => g (X i) (rows.get j).1) ⬝ᵥ (D⁻¹ *ᵥ fun j => g (X i) (rows.get j).1) := by
  obtain ⟨A, B, C, hA, hB, hC, hpd, hcov, hmu, hsig⟩ := gpRegress_inv h
  have eC : C = Matrix.of fun i j => g (rows.get i).1 (rows.get j).1 := by
    ext i j; exact hg _ _ C hC i j
  subst eC
  refine ⟨_, rfl, hpd, fun i => ?_, hsig, fun i => ?_⟩
  · rw [hmu i]
    congr 1
    simp only [mulVec, dotProduct]
    exact Finset.sum_congr rfl fun j _ => by rw [hg _ _ B hB]
  · rw [hcov, Matrix.sub_apply, hg _ _ A hA, ← Matrix.mul_assoc, Matrix.mul_assoc]
    congr 1
    simp only [Matrix.mul_apply, dotProduct, mulVec, Matrix.transpose_apply]
    exact Finset.sum_congr rfl fun j _ => by
      rw [hg _ _ B hB]
      congr 1
      exact Finset.sum_congr rfl fun l _ => by rw [hg _ _ B hB]

open Classical in
/-- How often `x` occurs in the training data. -/
noncomputable def visits (st : GPState d) (x : Pt d) : Nat := ((st.getD []).filter fun r => r.1 = x).length

/-- The training data are exact values of `f`, all with noise `s`; there are some if there was a call of `add`. -/
structure RowsOf (f : Pt d → ℝ) (s : ℝ) (st : GPState d) : Prop where
  vals : ∀ r ∈ st.getD [], r.2.1 = f r.1 ∧ r.2.2 = s
  some : st ≠ some []

theorem sum_indicator {α : Type*} (l : List α) (P : α → Prop) [DecidablePred P] (c : ℝ) :
    ∑ j : Fin l.length, (if P (l.get j) then c else 0) = (l.filter fun a => P a).length * c := by
  have h : ∑ j : Fin l.length, (if P (l.get j) then c else 0) = (l.map fun a => if P a then c else 0).sum := by
    rw [← List.sum_ofFn]
    congr 1
    apply List.ext_getElem <;> simp
  rw [h]
  induction l with
  | nil => simp
  | cons a l ih =>
    have ih' : (l.map fun a => if P a then c else 0).sum = (l.filter fun a => P a).length * c := by
      apply ih
      rw [← List.sum_ofFn]
      congr 1
      apply List.ext_getElem <;> simp
    by_cases ha : P a
    · simp [ha, ih']; ring
    · simp [ha, ih']

/-- The variance at a point measured `N` times. -/
theorem var_le_visits {k : KExpr ℝ (Pt d)} (hok : AllLeaves (LeafOK (d = 1)) k) (hq : AllLeaves NoNoise k) {f : Pt d → ℝ} {s v : ℝ}
    (hs : 0 < s) {rows : List (Pt d × ℝ × ℝ)} (hr : ∀ r ∈ rows, r.2.2 = s) {X : Fin n → Pt d} {p : GPPred n}
    (h : gpRegress (kcov k) (fun _ => 0) (some rows) X = .ok p) (i : Fin n)
    (hv : ∀ c : Matrix (Fin 1) (Fin 1) ℝ, k.cov (fun _ : Fin 1 => X i) (fun _ : Fin 1 => X i) = .ok c → c 0 0 ≤ v) :
    p.sigma i ≤ (v + s) / (visits (some rows) (X i) + 1) := by
  classical
  obtain ⟨g, hg, hsym, hpos, -⟩ := kernel_fn k hok hq
  obtain ⟨D, hDd, hD, -, hsig, hcov⟩ := gp_entries hg h
  have ha : 0 ≤ g (X i) (X i) := by
    have := hpos (X i) (t := 0) (fun j => j.elim0) (fun j => j.elim0)
    simpa [dotProduct] using this
  have hav : g (X i) (X i) ≤ v := by
    obtain ⟨c, hc⟩ := cov_returns k (fun _ : Fin 1 => X i) (fun _ : Fin 1 => X i) (by norm_num)
    have := hv c hc
    rwa [hg _ _ c hc] at this
  set x := X i with hx
  set N : Nat := visits (some rows) x with hN
  have hN1 : (0 : ℝ) < N + 1 := by positivity
  let w : Fin rows.length → ℝ := fun j => if (rows.get j).1 = x then 1 / ((N : ℝ) + 1) else 0
  have hW : ∑ j, w j = N * (1 / ((N : ℝ) + 1)) := by
    have := sum_indicator rows (fun r => r.1 = x) (1 / ((N : ℝ) + 1))
    simpa [w, hN, visits] using this
  have hb : w ⬝ᵥ (fun j => g x (rows.get j).1) = (N * (1 / ((N : ℝ) + 1))) * g x x := by
    rw [← hW, Finset.sum_mul]
    refine Finset.sum_congr rfl fun j _ => ?_
    by_cases hj : (rows.get j).1 = x
    · simp only [w, if_pos hj, hj]
    · simp only [w, if_neg hj, zero_mul]
  have hK : w ⬝ᵥ ((Matrix.of fun i j => g (rows.get i).1 (rows.get j).1) *ᵥ w) = (N * (1 / ((N : ℝ) + 1))) ^ 2 * g x x := by
    rw [sq, ← hW, Finset.sum_mul, Finset.sum_mul]
    refine Finset.sum_congr rfl fun j _ => ?_
    by_cases hj : (rows.get j).1 = x
    · simp only [mulVec, dotProduct, Matrix.of_apply, hj]
      rw [mul_assoc]
      congr 1
      rw [Finset.sum_mul]
      refine Finset.sum_congr rfl fun l _ => ?_
      by_cases hl : (rows.get l).1 = x
      · simp only [hl]; ring
      · simp only [w, if_neg hl, zero_mul, mul_zero]
    · simp only [w, if_neg hj, zero_mul]
  have hS : w ⬝ᵥ ((diagonal fun j : Fin rows.length => (rows.get j).2.2) *ᵥ w) = s * (N * (1 / ((N : ℝ) + 1))) * (1 / ((N : ℝ) + 1)) := by
    rw [← hW, Finset.mul_sum, Finset.sum_mul]
    refine Finset.sum_congr rfl fun j _ => ?_
    rw [mulVec_diagonal, hr _ (List.get_mem rows j)]
    by_cases hj : (rows.get j).1 = x
    · simp only [w, if_pos hj]; ring
    · simp only [w, if_neg hj]; ring
  have hle := var_le_weights hD (g x x) (fun j => g x (rows.get j).1) w
  have hDw : w ⬝ᵥ (D *ᵥ w) = (N * (1 / ((N : ℝ) + 1))) ^ 2 * g x x + s * (N * (1 / ((N : ℝ) + 1))) * (1 / ((N : ℝ) + 1)) := by
    rw [hDd, add_mulVec, dotProduct_add, hK, hS]
  rw [hsig i, hcov i]
  have hv0 : 0 ≤ v := ha.trans hav
  refine max_le (by positivity) (hle.trans ?_)
  rw [hb, hDw]
  have e : g x x - 2 * (N * (1 / ((N : ℝ) + 1)) * g x x) +
      ((N * (1 / ((N : ℝ) + 1))) ^ 2 * g x x + s * (N * (1 / ((N : ℝ) + 1))) * (1 / ((N : ℝ) + 1))) =
      (g x x + N * s) / (N + 1) / (N + 1) := by
    field_simp
    ring
  rw [e]
  refine div_le_div_of_nonneg_right ?_ hN1.le
  rw [div_le_iff₀ hN1]
  have hNn : (0 : ℝ) ≤ N := Nat.cast_nonneg N
  nlinarith

/-- A prediction of exact data: it exists, its confidence band contains the function, and its variances are small where measured. -/
theorem exact_prediction {k : KExpr ℝ (Pt d)} (hok : AllLeaves (LeafOK (d = 1)) k) (hq : AllLeaves NoNoise k) {f : Pt d → ℝ}
    {alpha s v : ℝ} (hal : 0 ≤ alpha) (hs : 0 < s) (hB : InBall k alpha f) {st : GPState d} (hst : RowsOf f s st) (X : Fin n → Pt d) (hn : 0 < n)
    (hv : ∀ i, ∀ c : Matrix (Fin 1) (Fin 1) ℝ, k.cov (fun _ : Fin 1 => X i) (fun _ : Fin 1 => X i) = .ok c → c 0 0 ≤ v) :
    ∃ p, gpRegress (kcov k) (fun _ => 0) st X = .ok p ∧ ∀ i, |f (X i) - p.mu i| ≤ alpha * Real.sqrt (p.sigma i) ∧
      0 ≤ p.sigma i ∧ p.sigma i ≤ (v + s) / (visits st (X i) + 1) := by
  obtain ⟨g, hg, hsym, hpos, hball⟩ := kernel_fn k hok hq
  have ha : ∀ x, 0 ≤ g x x := fun x => by
    have := hpos x (t := 0) (fun j => j.elim0) (fun j => j.elim0)
    simpa [dotProduct] using this
  have conf : ∀ {a b : ℝ}, a ^ 2 ≤ alpha ^ 2 * b → 0 ≤ b → |a| ≤ alpha * Real.sqrt b := fun {a b} h hb => by
    rw [← Real.sqrt_sq hal, ← Real.sqrt_mul (sq_nonneg _), ← Real.sqrt_sq_eq_abs]
    exact Real.sqrt_le_sqrt h
  cases st with
  | none =>
    obtain ⟨c, hc⟩ := cov_returns k X X hn
    refine ⟨⟨fun _ => 0, fun i => max 0 (c i i), c⟩, ?_, fun i => ?_⟩
    · simp only [gpRegress, kcov, hc]
    have hci : c i i = g (X i) (X i) := hg _ _ c hc i i
    have hm : max 0 (c i i) = g (X i) (X i) := by rw [hci]; exact max_eq_right (ha _)
    simp only [hm]
    refine ⟨conf ?_ (ha _), ha _, ?_⟩
    · have := hball alpha f hB (X i) (t := 0) (fun j => j.elim0) (fun j => j.elim0)
      simpa [dotProduct] using this
    · obtain ⟨c', hc'⟩ := cov_returns k (fun _ : Fin 1 => X i) (fun _ : Fin 1 => X i) (by norm_num)
      have := hv i c' hc'
      rw [hg _ _ c' hc'] at this
      simp only [visits, Option.getD_none, List.filter_nil, List.length_nil, Nat.cast_zero, zero_add, div_one]
      linarith
  | some rows =>
    have hne : rows ≠ [] := fun h => hst.some (by rw [h])
    have hs' : ∀ r ∈ rows, r.2.2 = s := fun r hr => (hst.vals r hr).2
    obtain ⟨p, hp⟩ := Props.C43_returns k hok (quiet_of_noNoise k hq) (fun _ => 0) rows hne (fun r hr => by rw [hs' r hr]; exact hs) X hn
    refine ⟨p, hp, fun i => ?_⟩
    obtain ⟨D, hDd, hD, hmu, -, hcov⟩ := gp_entries hg hp
    have hc := confidence_core (K := Matrix.of fun i j => g (rows.get i).1 (rows.get j).1) (s := fun j => (rows.get j).2.2)
      (fun j => by rw [hs' _ (List.get_mem rows j)]; exact hs) (hDd ▸ hD) (a := g (X i) (X i)) (B := alpha) (fx := f (X i))
      (b := fun j => g (X i) (rows.get j).1) (g := fun j => f (rows.get j).1) (y := fun j => (rows.get j).2.1)
      (fun w => hball alpha f hB (X i) _ w) (fun w => hpos (X i) _ w)
    have hz : ∑ j : Fin rows.length, ((rows.get j).2.1 - f (rows.get j).1) ^ 2 / (rows.get j).2.2 = 0 :=
      Finset.sum_eq_zero fun j _ => by rw [(hst.vals _ (List.get_mem rows j)).1]; simp
    rw [hz, add_zero, ← hDd] at hc
    obtain ⟨_, -, -, -, h2⟩ := Props.C43_posterior k hok (quiet_of_noNoise k hq) (fun _ => 0) rows
      (fun r hr => by rw [hs' r hr]; exact hs.le) X hn hp
    have hsi := (h2 i).1.trans (hcov i)
    have hnn := (h2 i).2.1
    refine ⟨?_, hnn, var_le_visits (f := f) hok hq hs hs' hp i (hv i)⟩
    rw [hmu i, add_zero]
    exact conf (by rw [hsi]; exact hc) hnn

theorem bestOf_eq_image (f : Pt d → ℝ) (l : List (Pt d)) : {y | ∃ x ∈ l, y = f x} = f '' {x | x ∈ l} := by
  ext y
  simp [eq_comm]

theorem bestOf_bdd (f : Pt d → ℝ) (l : List (Pt d)) : BddAbove {y | ∃ x ∈ l, y = f x} := by
  rw [bestOf_eq_image]
  exact ((List.finite_toSet l).image f).bddAbove

theorem le_bestOf {f : Pt d → ℝ} {l : List (Pt d)} {x : Pt d} (h : x ∈ l) : f x ≤ bestOf f l :=
  le_csSup (bestOf_bdd f l) ⟨x, h, rfl⟩

theorem bestOf_le {f : Pt d → ℝ} {l : List (Pt d)} (hl : l ≠ []) {c : ℝ} (h : ∀ x ∈ l, f x ≤ c) : bestOf f l ≤ c := by
  obtain ⟨x, hx⟩ := List.exists_mem_of_ne_nil l hl
  refine csSup_le ⟨f x, x, hx, rfl⟩ ?_
  rintro y ⟨z, hz, rfl⟩
  exact h z hz

theorem gpAdd_getD (st : GPState d) (rows : List (Pt d × ℝ × ℝ)) :
    (gpAdd (fun _ => 0) st rows).getD [] = st.getD [] ++ rows := by
  cases st <;> simp [gpAdd]

theorem gpAdd_isSome (st : GPState d) (rows : List (Pt d × ℝ × ℝ)) (h : rows ≠ []) : gpAdd (fun _ => 0) st rows ≠ some [] := by
  cases st <;> simp [gpAdd, h]

/-- One pass. -/
theorem turn_spec {k : KExpr ℝ (Pt d)} (hok : AllLeaves (LeafOK (d = 1)) k) (hq : AllLeaves NoNoise k) {f : Pt d → ℝ}
    {alpha s v : ℝ} (hal : 0 ≤ alpha) (hs : 0 < s) (hB : InBall k alpha f) {S : Finset (Pt d)} (hv : VarianceAtMost k S v) {q : Nat}
    (hq0 : 0 < q) {t : UcbTurn d} (ht : TurnOK S q t) {st : GPState d} (hst : RowsOf f s st) :
    ∃ sel st' u x0, ucbTurn (kcov k) alpha s f q t st = .ok (sel, st') ∧ ValidSelection t.cands.length q ∅ ∅ sel ∧ RowsOf f s st' ∧
      x0 ∈ S ∧ 0 ≤ turnRegret f t sel ∧ turnRegret f t sel ≤ 2 * alpha * Real.sqrt u ∧ 0 ≤ u ∧
      u ≤ (v + s) / (visits st x0 + 1) ∧ (∀ x, visits st x ≤ visits st' x) ∧ visits st x0 + 1 ≤ visits st' x0 := by
  have hn : 0 < t.cands.length := lt_of_lt_of_le hq0 ht.enough
  obtain ⟨p, hp, hpr⟩ := exact_prediction hok hq hal hs hB hst t.cands.get hn fun i => hv _ (ht.mem _ (List.get_mem _ _))
  have hlen : (List.ofFn p.mu).length = t.cands.length := List.length_ofFn
  obtain ⟨sel, hsel, hval, hord⟩ := Props.C47_ucb t.ordL ht.ordL false true ht.ord (List.ofFn p.mu) (List.ofFn p.sigma)
    (by simp) alpha q ∅ ∅ (by simp) (Or.inl rfl) hq0 (by simpa using ht.enough)
  rw [hlen] at hval hord
  obtain ⟨p', q', e, h1, -, -, h2, -, h3, -⟩ := hord
  have hp' : p' = [] := List.eq_nil_iff_forall_not_mem.2 fun i hi => by simpa using h1 i hi
  rw [hp', List.nil_append] at e
  subst e
  obtain ⟨i0, rest, rfl⟩ : ∃ i0 rest, sel = i0 :: rest := by
    cases sel with
    | nil => have := hval.length; simp at this; omega
    | cons a l => exact ⟨a, l, rfl⟩
  have hi0 : i0 < t.cands.length := (hval.fresh i0 (by simp)).1
  let I0 : Fin t.cands.length := ⟨i0, hi0⟩
  have hmu : ∀ j : Fin t.cands.length, (List.ofFn p.mu)[j.val]? = some (p.mu j) := fun j => by
    rw [List.getElem?_ofFn]; simp
  have hsg : ∀ j : Fin t.cands.length, (List.ofFn p.sigma)[j.val]? = some (p.sigma j) := fun j => by
    rw [List.getElem?_ofFn]; simp
  have hbest : ∀ j : Fin t.cands.length, p.mu j + alpha * Real.sqrt (p.sigma j) ≤ p.mu I0 + alpha * Real.sqrt (p.sigma I0) := by
    intro j
    by_cases hj : j.val ∈ i0 :: rest
    · rcases List.mem_cons.1 hj with hj | hj
      · have : j = I0 := Fin.ext hj
        rw [this]
      · exact (List.pairwise_cons.1 h2).1 j.val hj _ _ _ _ (hmu I0) (hsg I0) (hmu j) (hsg j)
    · exact h3 i0 (by simp) j.val (by simp) hj _ _ _ _ (hmu I0) (hsg I0) (hmu j) (hsg j)
  set x0 := t.cands.get I0 with hx0
  have hx0c : x0 ∈ t.cands := List.get_mem _ _
  have hx0s : x0 ∈ chosen t (i0 :: rest) := by
    unfold chosen
    rw [List.mem_filterMap]
    exact ⟨i0, by simp, by rw [List.getElem?_eq_getElem hi0]; rfl⟩
  have hsub : ∀ x ∈ chosen t (i0 :: rest), x ∈ t.cands := by
    intro x hx
    unfold chosen at hx
    rw [List.mem_filterMap] at hx
    obtain ⟨i, -, hi⟩ := hx
    exact List.mem_of_getElem? hi
  have hreg : ∀ x ∈ t.cands, f x ≤ f x0 + 2 * alpha * Real.sqrt (p.sigma I0) := by
    intro x hx
    obtain ⟨j, rfl⟩ := List.get_of_mem hx
    have ha := abs_le.1 (hpr j).1
    have hb := abs_le.1 (hpr I0).1
    have hc := hbest j
    have : t.cands.get I0 = x0 := rfl
    rw [this] at hb
    linarith [ha.2, hb.1]
  refine ⟨i0 :: rest, gpAdd (fun _ => 0) st ((chosen t (i0 :: rest)).map fun x => (x, f x, s)), p.sigma I0, x0, ?_, hval, ?_, ht.mem _ hx0c,
    ?_, ?_, (hpr I0).2.1, (hpr I0).2.2, ?_, ?_⟩
  · unfold ucbTurn
    simp only [hp, hsel]
    rfl
  · constructor
    · intro r hr
      rw [gpAdd_getD, List.mem_append] at hr
      rcases hr with hr | hr
      · exact hst.vals r hr
      · obtain ⟨x, -, rfl⟩ := List.mem_map.1 hr
        exact ⟨rfl, rfl⟩
    · exact gpAdd_isSome st _ (by
        intro h
        rw [List.map_eq_nil_iff] at h
        rw [h] at hx0s
        cases hx0s)
  · unfold turnRegret
    exact sub_nonneg.2 (bestOf_le (List.ne_nil_of_mem hx0s) fun x hx => le_bestOf (hsub x hx))
  · unfold turnRegret
    have h4 := bestOf_le (List.ne_nil_of_mem hx0c) hreg
    have h5 := le_bestOf (f := f) hx0s
    linarith
  · intro x
    unfold visits
    rw [gpAdd_getD, List.filter_append, List.length_append]
    omega
  · unfold visits
    rw [gpAdd_getD, List.filter_append, List.length_append]
    have : 0 < ((((chosen t (i0 :: rest)).map fun x => (x, f x, s))).filter fun r => r.1 = x0).length := by
      rw [List.length_pos_iff_exists_mem]
      exact ⟨(x0, f x0, s), List.mem_filter.2 ⟨List.mem_map.2 ⟨x0, hx0s, rfl⟩, by simp⟩⟩
    omega

/-- All passes: the regrets are bounded by square roots whose squares add up to harmonic sums. -/
theorem run_spec {k : KExpr ℝ (Pt d)} (hok : AllLeaves (LeafOK (d = 1)) k) (hq : AllLeaves NoNoise k) {f : Pt d → ℝ}
    {alpha s v : ℝ} (hal : 0 ≤ alpha) (hs : 0 < s) (hvs : 0 ≤ v + s) (hB : InBall k alpha f) {S : Finset (Pt d)} (hv : VarianceAtMost k S v)
    {q : Nat} (hq0 : 0 < q) (ts : List (UcbTurn d)) : (∀ t ∈ ts, TurnOK S q t) → ∀ (st : GPState d), RowsOf f s st →
    ∀ c : Pt d → Nat, (∀ x, c x ≤ visits st x) →
    ∃ sels st', ∃ us : List ℝ, ∃ c' : Pt d → Nat, ucbRun (kcov k) alpha s f q ts st = .ok (sels, st') ∧
      List.Forall₂ (fun t sel => ValidSelection t.cands.length q ∅ ∅ sel) ts sels ∧ us.length = ts.length ∧ (∀ u ∈ us, (0 : ℝ) ≤ u) ∧
      0 ≤ totalRegret f ts sels ∧ totalRegret f ts sels ≤ 2 * alpha * (us.map Real.sqrt).sum ∧ (∀ x, c x ≤ c' x) ∧
      (∀ x, c' x ≤ c x + ts.length) ∧ us.sum ≤ (v + s) * ∑ x ∈ S, ((harmonic (c' x) : ℝ) - (harmonic (c x) : ℝ)) := by
  classical
  induction ts with
  | nil =>
    intro _ st _ c _
    exact ⟨[], st, [], c, rfl, .nil, rfl, by simp, by simp [totalRegret], by simp [totalRegret], fun _ => le_rfl, fun _ => le_rfl, by simp⟩
  | cons t ts ih =>
    intro hts st hst c hc
    obtain ⟨sel, st1, u, x0, hrun, hval, hst1, hx0, hr0, hr1, hu0, hu1, hm, hm0⟩ :=
      turn_spec hok hq hal hs hB hv hq0 (hts t (by simp)) hst
    obtain ⟨sels, st', us, c', h1, h2, h3, h4, h5, h6, h7, h8, h9⟩ := ih (fun t' ht' => hts t' (by simp [ht'])) st1 hst1
      (Function.update c x0 (c x0 + 1)) (fun x => by
        by_cases hx : x = x0
        · subst hx
          rw [Function.update_self]
          exact (Nat.add_le_add_right (hc x) 1).trans hm0
        · rw [Function.update_of_ne hx]
          exact (hc x).trans (hm x))
    have hle : ∀ x, c x ≤ Function.update c x0 (c x0 + 1) x := fun x => by
      by_cases hx : x = x0
      · subst hx; rw [Function.update_self]; omega
      · rw [Function.update_of_ne hx]
    refine ⟨sel :: sels, st', u :: us, c', ?_, .cons hval h2, by simp [h3], ?_, ?_, ?_, fun x => (hle x).trans (h7 x), ?_, ?_⟩
    · simp only [ucbRun, hrun, h1]
    · intro u' hu'
      rcases List.mem_cons.1 hu' with rfl | hu'
      · exact hu0
      · exact h4 u' hu'
    · simp only [totalRegret, List.zipWith_cons_cons, List.sum_cons] at h5 ⊢
      linarith
    · simp only [totalRegret, List.zipWith_cons_cons, List.sum_cons, List.map_cons] at h6 ⊢
      linarith
    · intro x
      have := h8 x
      have h10 : Function.update c x0 (c x0 + 1) x ≤ c x + 1 := by
        by_cases hx : x = x0
        · subst hx; rw [Function.update_self]
        · rw [Function.update_of_ne hx]; omega
      simp only [List.length_cons]
      omega
    · rw [List.sum_cons]
      have hsplit : ∑ x ∈ S, ((harmonic (c' x) : ℝ) - (harmonic (c x) : ℝ)) =
          ∑ x ∈ S, ((harmonic (c' x) : ℝ) - (harmonic (Function.update c x0 (c x0 + 1) x) : ℝ)) +
          ∑ x ∈ S, ((harmonic (Function.update c x0 (c x0 + 1) x) : ℝ) - (harmonic (c x) : ℝ)) := by
        rw [← Finset.sum_add_distrib]
        exact Finset.sum_congr rfl fun x _ => by ring
      have hone : ∑ x ∈ S, ((harmonic (Function.update c x0 (c x0 + 1) x) : ℝ) - (harmonic (c x) : ℝ)) = 1 / ((c x0 : ℝ) + 1) := by
        rw [Finset.sum_eq_single x0]
        · rw [Function.update_self, harmonic_succ]
          push_cast
          ring
        · intro x _ hx
          rw [Function.update_of_ne hx, sub_self]
        · intro h; exact absurd hx0 h
      rw [hsplit, hone, mul_add]
      have : u ≤ (v + s) * (1 / ((c x0 : ℝ) + 1)) := by
        refine hu1.trans ?_
        rw [mul_one_div]
        refine div_le_div_of_nonneg_left hvs (by positivity) ?_
        have := hc x0
        have h11 : (c x0 : ℝ) ≤ visits st x0 := by exact_mod_cast this
        linarith
      linarith

theorem sqrt_sum_le (us : List ℝ) (h : ∀ u ∈ us, 0 ≤ u) : (us.map Real.sqrt).sum ≤ Real.sqrt (us.length * us.sum) := by
  have h1 : (us.map Real.sqrt).sum = ∑ j : Fin us.length, Real.sqrt us[j] := by
    rw [← List.sum_ofFn]
    congr 1
    apply List.ext_getElem <;> simp
  have h2 : us.sum = ∑ j : Fin us.length, us[j] := by
    rw [← List.sum_ofFn]
    congr 1
    apply List.ext_getElem <;> simp
  apply Real.le_sqrt_of_sq_le
  rw [h1, h2]
  have := sq_sum_le_card_mul_sum_sq (s := (Finset.univ : Finset (Fin us.length))) (f := fun j => Real.sqrt us[j])
  refine this.trans (le_of_eq ?_)
  rw [Finset.card_univ, Fintype.card_fin]
  congr 1
  exact Finset.sum_congr rfl fun j _ => Real.sq_sqrt (h _ (List.getElem_mem _))

/-- The training data only grow, and contain a row for every selected candidate. -/
theorem run_rows {cov : CovFn d} {alpha s : ℝ} {f : Pt d → ℝ} {q : Nat} (ts : List (UcbTurn d)) : ∀ (st : GPState d) sels st',
    ucbRun cov alpha s f q ts st = .ok (sels, st') → (∀ r ∈ st.getD [], r ∈ st'.getD []) ∧ sels.length = ts.length ∧
      ∀ p ∈ ts.zip sels, ∀ x ∈ chosen p.1 p.2, (x, f x, s) ∈ st'.getD [] := by
  induction ts with
  | nil =>
    intro st sels st' h
    simp only [ucbRun, Except.ok.injEq, Prod.mk.injEq] at h
    obtain ⟨rfl, rfl⟩ := h
    exact ⟨fun _ h => h, rfl, by simp⟩
  | cons t ts ih =>
    intro st sels st' h
    simp only [ucbRun] at h
    split at h
    · cases h
    · rename_i sel st1 h1
      split at h
      · cases h
      · rename_i sels1 st2 h2
        simp only [Except.ok.injEq, Prod.mk.injEq] at h
        obtain ⟨rfl, rfl⟩ := h
        obtain ⟨i1, i2, i3⟩ := ih st1 sels1 st2 h2
        have hst1 : st1.getD [] = st.getD [] ++ (chosen t sel).map fun x => (x, f x, s) := by
          unfold ucbTurn at h1
          split at h1
          · cases h1
          · split at h1
            · cases h1
            · simp only [Except.ok.injEq, Prod.mk.injEq] at h1
              obtain ⟨rfl, rfl⟩ := h1
              rw [gpAdd_getD]
              rfl
        refine ⟨fun r hr => i1 r (by rw [hst1]; exact List.mem_append_left _ hr), by simp [i2], ?_⟩
        intro p hp x hx
        rw [List.zip_cons_cons] at hp
        rcases List.mem_cons.1 hp with rfl | hp
        · exact i1 _ (by rw [hst1]; exact List.mem_append_right _ (List.mem_map.2 ⟨x, hx, rfl⟩))
        · exact i3 p hp x hx

/-- Some pass has at most the average regret. -/
theorem exists_small_regret {f : Pt d → ℝ} {ts : List (UcbTurn d)} {sels : List (List Nat)} (hl : sels.length = ts.length) (hne : ts ≠ [])
    {c : ℝ} (h : totalRegret f ts sels ≤ ts.length * c) : ∃ p ∈ ts.zip sels, turnRegret f p.1 p.2 ≤ c := by
  have hz : ts.zip sels ≠ [] := by
    intro h0
    have := congrArg List.length h0
    rw [List.length_zip, hl, min_self] at this
    exact hne (List.length_eq_zero_iff.1 this)
  refine List.exists_le_of_sum_le hz (fun p => turnRegret f p.1 p.2) (fun _ => c) ?_
  have e : (List.zipWith (turnRegret f) ts sels) = (ts.zip sels).map fun p => turnRegret f p.1 p.2 := by
    rw [List.zip, List.map_zipWith]
  unfold totalRegret at h
  rw [e] at h
  rw [List.map_const', List.sum_replicate, List.length_zip, hl, min_self, nsmul_eq_mul]
  exact h

/-- A list with a best element. -/
theorem bestOf_attained {f : Pt d → ℝ} {l : List (Pt d)} (hl : l ≠ []) : ∃ x ∈ l, bestOf f l = f x := by
  obtain ⟨x, hx⟩ := List.exists_mem_of_ne_nil l hl
  have hfin : {y | ∃ x ∈ l, y = f x}.Finite := by
    rw [bestOf_eq_image]
    exact (List.finite_toSet l).image f
  have hn : {y | ∃ x ∈ l, y = f x}.Nonempty := ⟨f x, x, hx, rfl⟩
  exact hn.csSup_mem hfin

theorem chosen_ne_nil {t : UcbTurn d} {q : Nat} (hq : 0 < q) {sel : List Nat} (h : ValidSelection t.cands.length q ∅ ∅ sel) :
    chosen t sel ≠ [] := by
  cases sel with
  | nil => have := h.length; simp at this; omega
  | cons i l =>
    have hi : i < t.cands.length := (h.fresh i (by simp)).1
    intro h0
    have : t.cands[i] ∈ chosen t (i :: l) := by
      unfold chosen
      rw [List.mem_filterMap]
      exact ⟨i, by simp, by rw [List.getElem?_eq_getElem hi]⟩
    rw [h0] at this
    cases this

/-- A pass with some, but too few candidates. -/
theorem turn_too_few {k : KExpr ℝ (Pt d)} (hok : AllLeaves (LeafOK (d = 1)) k) (hq : AllLeaves NoNoise k) {f : Pt d → ℝ}
    {alpha s : ℝ} (hs : 0 < s) {q : Nat} {t : UcbTurn d} (hord : Enumerates t.ord) (hordL : ∀ i, Enumerates (t.ordL i)) (hne : t.cands ≠ [])
    (hlt : t.cands.length < q) {st : GPState d} (hst : RowsOf f s st) : ucbTurn (kcov k) alpha s f q t st = .error .exception := by
  have hn : 0 < t.cands.length := List.length_pos_iff.2 hne
  obtain ⟨p, hp⟩ : ∃ p, gpRegress (kcov k) (fun _ => 0) st t.cands.get = .ok p := by
    cases st with
    | none =>
      obtain ⟨c, hc⟩ := cov_returns k t.cands.get t.cands.get hn
      exact ⟨⟨fun _ => 0, fun i => max 0 (c i i), c⟩, by simp only [gpRegress, kcov, hc]⟩
    | some rows =>
      exact Props.C43_returns k hok (quiet_of_noNoise k hq) (fun _ => 0) rows (fun h => hst.some (by rw [h]))
        (fun r hr => by rw [(hst.vals r hr).2]; exact hs) t.cands.get hn
  set mu := List.ofFn p.mu with hmu
  set var := List.ofFn p.sigma with hvar
  have hml : mu.length = t.cands.length := List.length_ofFn
  have hvl : var.length = mu.length := by simp [hmu, hvar]
  have hg : ∀ i S p, S.Nonempty → S ⊆ Finset.range mu.length →
      ∃ j ∈ S, (ucbLearner t.ordL mu var alpha).greedy i S p = .ok j ∧ True := by
    intro i S p hS hsub
    have hb : ∀ j ∈ t.ordL i S, j < mu.length := fun j hj => by simpa using hsub ((hordL i S j).1 hj)
    obtain ⟨ms, hms, hml, -⟩ := gather_ok mu (t.ordL i S) hb
    obtain ⟨vs, hvs, hvl, -⟩ := gather_ok var (t.ordL i S) (by rw [hvl]; exact hb)
    obtain ⟨j, a, hj, hja, -⟩ := pickMax_ok (t.ordL i S) (List.zipWith (fun m v => m + alpha * Real.sqrt v) ms vs)
      (by rw [List.length_zipWith, hml, hvl, min_self]) (ord_ne_nil (hordL i) hS)
    exact ⟨a, (hordL i S a).1 (List.mem_of_getElem? hja), by simp only [ucbLearner, hms, hvs, hj], trivial⟩
  have h := (learnerSelect_cases (P := fun _ _ => True) (ucbLearner t.ordL mu var alpha) false true none hord mu q ∅ ∅ (.inl rfl)
    (by simp) (by simp only [effAlts]; omega) hg).2 (by simp only [effAlts, Finset.sdiff_empty, Finset.card_range]; omega)
  unfold ucbTurn
  simp only [hp, ← hmu, ← hvar, h]

/-- Every row is an exact value with noise `s`. -/
theorem run_rowsOf {cov : CovFn d} {alpha s : ℝ} {f : Pt d → ℝ} {q : Nat} (ts : List (UcbTurn d)) : ∀ (st : GPState d) sels st',
    ucbRun cov alpha s f q ts st = .ok (sels, st') → (∀ r ∈ st.getD [], r.2.1 = f r.1 ∧ r.2.2 = s) →
      ∀ r ∈ st'.getD [], r.2.1 = f r.1 ∧ r.2.2 = s := by
  induction ts with
  | nil =>
    intro st sels st' h
    simp only [ucbRun, Except.ok.injEq, Prod.mk.injEq] at h
    obtain ⟨rfl, rfl⟩ := h
    exact id
  | cons t ts ih =>
    intro st sels st' h hst
    simp only [ucbRun] at h
    split at h
    · cases h
    · rename_i sel st1 h1
      split at h
      · cases h
      · rename_i sels1 st2 h2
        simp only [Except.ok.injEq, Prod.mk.injEq] at h
        obtain ⟨rfl, rfl⟩ := h
        refine ih st1 sels1 st2 h2 ?_
        unfold ucbTurn at h1
        split at h1
        · cases h1
        · split at h1
          · cases h1
          · simp only [Except.ok.injEq, Prod.mk.injEq] at h1
            obtain ⟨rfl, rfl⟩ := h1
            intro r hr
            rw [gpAdd_getD, List.mem_append] at hr
            rcases hr with hr | hr
            · exact hst r hr
            · obtain ⟨x, -, rfl⟩ := List.mem_map.1 hr
              exact ⟨rfl, rfl⟩

theorem ucbRun_append (cov : CovFn d) (alpha s : ℝ) (f : Pt d → ℝ) (q : Nat) (ts ts' : List (UcbTurn d)) :
    ∀ (st : GPState d) {sels : List (List Nat)} {st1 : GPState d}, ucbRun cov alpha s f q ts st = .ok (sels, st1) →
      ucbRun cov alpha s f q (ts ++ ts') st = match ucbRun cov alpha s f q ts' st1 with
        | .error e => .error e
        | .ok (sels', st2) => .ok (sels ++ sels', st2) := by
  induction ts with
  | nil =>
    intro st sels st1 h
    simp only [ucbRun, Except.ok.injEq, Prod.mk.injEq] at h
    obtain ⟨rfl, rfl⟩ := h
    simp only [List.nil_append]
    cases ucbRun cov alpha s f q ts' st <;> rfl
  | cons t ts ih =>
    intro st sels st1 h
    simp only [ucbRun, List.cons_append] at h ⊢
    split at h
    · cases h
    · rename_i sel sta h1
      split at h
      · cases h
      · rename_i selsa stb h2
        simp only [Except.ok.injEq, Prod.mk.injEq] at h
        obtain ⟨rfl, rfl⟩ := h
        simp only [h1, ih sta h2]
        cases ucbRun cov alpha s f q ts' stb <;> rfl

/-- After passes with enough candidates the training data are not an empty table. -/
theorem run_not_empty {cov : CovFn d} {alpha s : ℝ} {f : Pt d → ℝ} {q : Nat} (hq0 : 0 < q) {S : Finset (Pt d)} (ts : List (UcbTurn d)) :
    (∀ t ∈ ts, TurnOK S q t) → ∀ (st : GPState d) sels st', ucbRun cov alpha s f q ts st = .ok (sels, st') → st ≠ some [] → st' ≠ some [] := by
  induction ts with
  | nil =>
    intro _ st sels st' h
    simp only [ucbRun, Except.ok.injEq, Prod.mk.injEq] at h
    obtain ⟨rfl, rfl⟩ := h
    exact id
  | cons t ts ih =>
    intro hts st sels st' h _
    have ht := hts t (by simp)
    simp only [ucbRun] at h
    split at h
    · cases h
    · rename_i sel st1 h1
      split at h
      · cases h
      · rename_i sels1 st2 h2
        simp only [Except.ok.injEq, Prod.mk.injEq] at h
        obtain ⟨rfl, rfl⟩ := h
        refine ih (fun t' ht' => hts t' (by simp [ht'])) st1 sels1 st2 h2 ?_
        unfold ucbTurn at h1
        split at h1
        · cases h1
        · rename_i p hp
          obtain ⟨sel', hsel', hval, -⟩ := Props.C47_ucb t.ordL ht.ordL false true ht.ord (List.ofFn p.mu) (List.ofFn p.sigma)
            (by simp) alpha q ∅ ∅ (by simp) (Or.inl rfl) hq0 (by simpa using ht.enough)
          rw [hsel'] at h1
          simp only [Except.ok.injEq, Prod.mk.injEq] at h1
          obtain ⟨rfl, rfl⟩ := h1
          rw [List.length_ofFn] at hval
          exact gpAdd_isSome st _ fun h0 => chosen_ne_nil hq0 hval (List.map_eq_nil_iff.1 h0)

end Lop
