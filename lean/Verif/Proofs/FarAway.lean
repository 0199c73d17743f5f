import Verif.Spec.FarAway
import Verif.Proofs.CovEntries
import Verif.Proofs.Laplace
import Verif.Props.Laplace
import Verif.Proofs.GP
import Verif.Proofs.GPSeq

/-! # Helper lemmas for predictions far away from the data -/

namespace Lop

open Spec Matrix

variable {d n m : Nat}

theorem rbf_small (s : ℝ) {l : ℝ} (hl : l ≠ 0) {eps : ℝ} (he : 0 < eps) :
    ∃ T > 0, ∀ x y : Pt d, T ≤ sqDist x y → |rbfEval s l x y| ≤ eps := by
  have hl2 : 0 < 2 * l * l := by
    have := mul_self_pos.2 hl
    linarith
  refine ⟨2 * l * l * (s * s / eps) + 1, by have := mul_self_nonneg s; positivity, fun x y h => ?_⟩
  have h1 : s * s / eps ≤ sqDist x y / (2 * l * l) := by
    rw [le_div_iff₀ hl2]
    linarith
  have hs := mul_self_nonneg s
  have hp : 0 < Real.exp (-sqDist x y / (2 * l * l)) := Real.exp_pos _
  unfold rbfEval
  rw [abs_of_nonneg (by positivity)]
  have h2 := Real.add_one_le_exp (sqDist x y / (2 * l * l))
  have h3 : Real.exp (-sqDist x y / (2 * l * l)) * Real.exp (sqDist x y / (2 * l * l)) = 1 := by
    rw [← Real.exp_add, neg_div, neg_add_cancel, Real.exp_zero]
  have h4 : s * s / eps ≤ Real.exp (sqDist x y / (2 * l * l)) := by linarith
  rw [div_le_iff₀ he] at h4
  nlinarith

theorem rbf_le (s l : ℝ) (x y : Pt d) : |rbfEval s l x y| ≤ s * s := by
  have hs := mul_self_nonneg s
  unfold rbfEval
  have h0 : 0 ≤ sqDist x y := Finset.sum_nonneg fun i _ => mul_self_nonneg _
  have h1 : Real.exp (-sqDist x y / (2 * l * l)) ≤ 1 := by
    rw [Real.exp_le_one_iff, neg_div]
    have : 0 ≤ 2 * l * l := by have := mul_self_nonneg l; linarith
    have := div_nonneg h0 this
    linarith
  have hp : 0 < Real.exp (-sqDist x y / (2 * l * l)) := Real.exp_pos _
  rw [abs_of_nonneg (by positivity)]
  nlinarith

theorem noiseTerm_le (noise : ℝ) (X : Fin n → Pt d) (Y : Fin m → Pt d) (i : Fin n) (j : Fin m) : |noiseTerm noise X Y i j| ≤ |noise| := by
  simp only [noiseTerm, Matrix.of_apply]
  split
  · exact le_rfl
  · simp

theorem noiseTerm_apart (noise : ℝ) {X : Fin n → Pt d} {Y : Fin m → Pt d} (h : ∀ i j, X i ≠ Y j) (i : Fin n) (j : Fin m) :
    noiseTerm noise X Y i j = 0 := by
  simp only [noiseTerm, Matrix.of_apply]
  rw [if_neg]
  rintro ⟨-, ⟨h1, h2, h3⟩, -⟩
  exact h _ _ h3

theorem far_dist {R : ℝ} {X : Fin n → Pt d} (h : FarOut R X) (y : Pt d) (i : Fin n) : R / 2 - ∑ c, y c ^ 2 ≤ sqDist (X i) y := by
  have h1 : ∑ c, X i c ^ 2 ≤ ∑ c, (2 * ((X i c - y c) * (X i c - y c)) + 2 * y c ^ 2) :=
    Finset.sum_le_sum fun c _ => by nlinarith [sq_nonneg (X i c - 2 * y c)]
  rw [Finset.sum_add_distrib, ← Finset.mul_sum, ← Finset.mul_sum] at h1
  have := h i
  unfold sqDist
  linarith

/-- Values of bounded kernels are bounded. -/
theorem bounded_cov (k : KExpr ℝ (Pt d)) (hk : BoundedKernel k) :
    ∃ C, 0 ≤ C ∧ ∀ {n m : Nat} (X : Fin n → Pt d) (Y : Fin m → Pt d) c, k.cov X Y = .ok c → ∀ i j, |c i j| ≤ C := by
  induction k with
  | leaf k =>
    cases k with
    | rbf s l noise =>
      refine ⟨s * s + |noise|, by have := mul_self_nonneg s; positivity, fun {n m} X Y c hc i j => ?_⟩
      have := i.pos
      simp only [KExpr.cov, KLeaf.cov] at hc
      rw [rbfCov_ok (by omega)] at hc
      cases hc
      exact (abs_add_le _ _).trans (add_le_add (rbf_le _ _ _ _) (noiseTerm_le _ _ _ _ _))
    | zeroed s l z noise =>
      have hs := mul_self_nonneg s
      have hA : 0 ≤ s * s + |noise| := by positivity
      refine ⟨(s * s + |noise|) + (s * s + |noise|) * (s * s + |noise|) / (s * s), by positivity, fun {n m} X Y c hc i j => ?_⟩
      rw [zeroedCov_entry hc]
      have e : ∀ {a b : Nat} (X : Fin a → Pt d) (Y : Fin b → Pt d) i j, |rbfEval s l (X i) (Y j) + noiseTerm noise X Y i j| ≤ s * s + |noise| :=
        fun X Y i j => (abs_add_le _ _).trans (add_le_add (rbf_le _ _ _ _) (noiseTerm_le _ _ _ _ _))
      refine (abs_sub _ _).trans (add_le_add (e _ _ _ _) ?_)
      rw [abs_div, abs_mul, abs_of_nonneg hs]
      exact div_le_div_of_nonneg_right (mul_le_mul (e X (fun _ : Fin 1 => zeroPt z) i 0) (e (fun _ : Fin 1 => zeroPt z) Y 0 j) (abs_nonneg _) hA) hs
    | linear s b c => exact hk.elim
    | periodic s l p =>
      have hs := mul_self_nonneg s
      refine ⟨s * s, hs, fun {n m} X Y c hc i j => ?_⟩
      simp only [KExpr.cov, KLeaf.cov, Except.ok.injEq] at hc
      subst hc
      simp only [Matrix.of_apply]
      have h1 : perExp l p (X i) (Y j) ≤ 1 := by
        unfold perExp
        rw [Real.exp_le_one_iff]
        have h2 : 0 ≤ 2 * (Real.sin (Real.pi * l1Dist (X i) (Y j) / p) * Real.sin (Real.pi * l1Dist (X i) (Y j) / p)) / (l * l) :=
          div_nonneg (by have := mul_self_nonneg (Real.sin (Real.pi * l1Dist (X i) (Y j) / p)); linarith) (mul_self_nonneg l)
        have e : -2 * Real.sin (Real.pi * l1Dist (X i) (Y j) / p) * Real.sin (Real.pi * l1Dist (X i) (Y j) / p) / (l * l) =
          -(2 * (Real.sin (Real.pi * l1Dist (X i) (Y j) / p) * Real.sin (Real.pi * l1Dist (X i) (Y j) / p)) / (l * l)) := by ring
        rw [e]
        linarith
      have h0 : 0 < perExp l p (X i) (Y j) := Real.exp_pos _
      rw [abs_of_nonneg (by positivity)]
      nlinarith
  | dual op a b iha ihb =>
    obtain ⟨Ca, hCa, ha⟩ := iha hk.1
    obtain ⟨Cb, hCb, hb⟩ := ihb hk.2
    cases op with
    | add =>
      refine ⟨Ca + Cb, by positivity, fun {n m} X Y c hc i j => ?_⟩
      obtain ⟨ca, cb, h1, h2, e⟩ := dual_cov_inv hc
      rw [e]
      exact (abs_add_le _ _).trans (add_le_add (ha X Y _ h1 i j) (hb X Y _ h2 i j))
    | mul =>
      refine ⟨Ca * Cb, by positivity, fun {n m} X Y c hc i j => ?_⟩
      obtain ⟨ca, cb, h1, h2, e⟩ := dual_cov_inv hc
      rw [e]
      simp only [abs_mul]
      exact mul_le_mul (ha X Y _ h1 i j) (hb X Y _ h2 i j) (abs_nonneg _) hCa

/-- Values of decaying kernels between far-away points and given points are small. -/
theorem decaying_cov (k : KExpr ℝ (Pt d)) (hk : Decaying k) {m : Nat} (Y : Fin m → Pt d) {eps : ℝ} (he : 0 < eps) :
    ∃ R, ∀ {n : Nat} (X : Fin n → Pt d), FarOut R X → ∀ c, k.cov X Y = .ok c → ∀ i j, |c i j| ≤ eps := by
  have hS : ∀ j, ∑ c, Y j c ^ 2 ≤ ∑ j, ∑ c, Y j c ^ 2 := fun j =>
    Finset.single_le_sum (f := fun j => ∑ c, Y j c ^ 2) (fun j _ => Finset.sum_nonneg fun c _ => sq_nonneg _) (Finset.mem_univ j)
  have hself : ∀ y : Pt d, sqDist y y = 0 := fun y => by simp [sqDist]
  induction k generalizing eps with
  | leaf k =>
    cases k with
    | rbf s l noise =>
      obtain ⟨T, hT, h⟩ := rbf_small (d := d) s hk he
      refine ⟨2 * (T + ∑ j, ∑ c, Y j c ^ 2), fun {n} X hX c hc i j => ?_⟩
      have := i.pos
      have hfar : ∀ i j, T ≤ sqDist (X i) (Y j) := fun i j => by
        have h1 := far_dist hX (Y j) i
        have h2 := hS j
        linarith
      have hap : ∀ i j, X i ≠ Y j := fun i j hij => by
        have := hfar i j
        rw [hij, hself] at this
        linarith
      simp only [KExpr.cov, KLeaf.cov] at hc
      rw [rbfCov_ok (by omega)] at hc
      cases hc
      simp only [Matrix.of_apply, noiseTerm_apart noise hap, add_zero]
      exact h _ _ (hfar i j)
    | zeroed s l z noise =>
      have hs := mul_self_nonneg s
      set A : ℝ := (s * s + |noise|) / (s * s) with hA
      have hA0 : 0 ≤ A := by positivity
      obtain ⟨T, hT, h⟩ := rbf_small (d := d) s hk (eps := eps / (1 + A)) (by positivity)
      have hz0 : 0 ≤ ∑ c, zeroPt z c ^ 2 := Finset.sum_nonneg fun c _ => sq_nonneg _
      have hY0 : 0 ≤ ∑ j, ∑ c, Y j c ^ 2 := Finset.sum_nonneg fun j _ => Finset.sum_nonneg fun c _ => sq_nonneg _
      refine ⟨2 * (T + ∑ j, ∑ c, Y j c ^ 2 + ∑ c, zeroPt z c ^ 2), fun {n} X hX c hc i j => ?_⟩
      have hfar : ∀ i j, T ≤ sqDist (X i) (Y j) := fun i j => by
        have h1 := far_dist hX (Y j) i
        have h2 := hS j
        linarith
      have hfarz : ∀ i, T ≤ sqDist (X i) (zeroPt z) := fun i => by
        have h1 := far_dist hX (zeroPt z) i
        linarith
      have hap : ∀ i j, X i ≠ Y j := fun i j hij => by
        have := hfar i j
        rw [hij, hself] at this
        linarith
      have hapz : ∀ i (j : Fin 1), X i ≠ (fun _ : Fin 1 => zeroPt z) j := fun i j hij => by
        have := hfarz i
        rw [hij, hself] at this
        linarith
      rw [zeroedCov_entry hc, noiseTerm_apart noise hap, noiseTerm_apart noise hapz, add_zero, add_zero]
      have h1 := h _ _ (hfar i j)
      have h2 := h _ _ (hfarz i)
      have h3 : |rbfEval s l (zeroPt z) (Y j) + noiseTerm noise (fun _ : Fin 1 => zeroPt z) Y 0 j| ≤ s * s + |noise| :=
        (abs_add_le _ _).trans (add_le_add (rbf_le _ _ _ _) (noiseTerm_le _ _ _ _ _))
      refine (abs_sub _ _).trans ?_
      rw [abs_div, abs_mul, abs_of_nonneg hs]
      have h4 : |rbfEval s l (X i) (zeroPt z)| * |rbfEval s l (zeroPt z) (Y j) + noiseTerm noise (fun _ : Fin 1 => zeroPt z) Y 0 j| / (s * s) ≤
          eps / (1 + A) * A := by
        rw [hA, ← mul_div_assoc]
        exact div_le_div_of_nonneg_right (mul_le_mul h2 h3 (abs_nonneg _) (by positivity)) hs
      have h5 : eps / (1 + A) + eps / (1 + A) * A = eps := by field_simp
      linarith
    | linear s b c => exact hk.elim
    | periodic s l p => exact hk.elim
  | dual op a b iha ihb =>
    cases op with
    | add =>
      obtain ⟨Ra, ha⟩ := iha hk.1 (half_pos he)
      obtain ⟨Rb, hb⟩ := ihb hk.2 (half_pos he)
      refine ⟨max Ra Rb, fun {n} X hX c hc i j => ?_⟩
      obtain ⟨ca, cb, h1, h2, e⟩ := dual_cov_inv hc
      rw [e]
      have h3 := ha X (fun i => (le_max_left _ _).trans (hX i)) _ h1 i j
      have h4 := hb X (fun i => (le_max_right _ _).trans (hX i)) _ h2 i j
      refine (abs_add_le _ _).trans ?_
      linarith
    | mul =>
      rcases hk with ⟨h1, h2⟩ | ⟨h1, h2⟩
      · obtain ⟨C, hC, hb⟩ := bounded_cov b h2
        obtain ⟨R, ha⟩ := iha h1 (eps := eps / (C + 1)) (by positivity)
        refine ⟨R, fun {n} X hX c hc i j => ?_⟩
        obtain ⟨ca, cb, h3, h4, e⟩ := dual_cov_inv hc
        rw [e]
        simp only [abs_mul]
        have h5 := mul_le_mul (ha X hX _ h3 i j) (hb X Y _ h4 i j) (abs_nonneg _) (by positivity)
        refine h5.trans ?_
        rw [div_mul_eq_mul_div, div_le_iff₀ (by positivity)]
        nlinarith
      · obtain ⟨C, hC, ha⟩ := bounded_cov a h1
        obtain ⟨R, hb⟩ := ihb h2 (eps := eps / (C + 1)) (by positivity)
        refine ⟨R, fun {n} X hX c hc i j => ?_⟩
        obtain ⟨ca, cb, h3, h4, e⟩ := dual_cov_inv hc
        rw [e]
        simp only [abs_mul]
        have h5 := mul_le_mul (ha X Y _ h3 i j) (hb X hX _ h4 i j) (abs_nonneg _) hC
        refine h5.trans ?_
        rw [mul_div_assoc', div_le_iff₀ (by positivity)]
        nlinarith

theorem mulVec_small {B : Matrix (Fin n) (Fin m) ℝ} {eps : ℝ} (hB : ∀ i j, |B i j| ≤ eps) (a : Fin m → ℝ) (i : Fin n) :
    |(B *ᵥ a) i| ≤ eps * ∑ j, |a j| := by
  simp only [mulVec, dotProduct]
  refine (Finset.abs_sum_le_sum_abs _ _).trans ?_
  rw [Finset.mul_sum]
  exact Finset.sum_le_sum fun j _ => by rw [abs_mul]; exact mul_le_mul_of_nonneg_right (hB i j) (abs_nonneg _)

theorem sandwich_small {B : Matrix (Fin n) (Fin m) ℝ} {eps : ℝ} (he : 0 ≤ eps) (hB : ∀ i j, |B i j| ≤ eps) (M : Matrix (Fin m) (Fin m) ℝ) (i j : Fin n) :
    |(B * (M * Bᵀ)) i j| ≤ eps * eps * ∑ a, ∑ b, |M a b| := by
  have e : (B * (M * Bᵀ)) i j = (B *ᵥ (M *ᵥ (fun b => B j b))) i := rfl
  rw [e]
  refine (mulVec_small hB _ i).trans ?_
  rw [mul_assoc]
  refine mul_le_mul_of_nonneg_left ?_ he
  rw [Finset.mul_sum]
  refine Finset.sum_le_sum fun a _ => ?_
  simp only [mulVec, dotProduct]
  refine (Finset.abs_sum_le_sum_abs _ _).trans ?_
  rw [Finset.mul_sum]
  exact Finset.sum_le_sum fun b _ => by rw [abs_mul, mul_comm]; exact mul_le_mul_of_nonneg_right (hB j b) (abs_nonneg _)

/-- A prediction of the form both models compute is close to the prior if the cross covariances are small. -/
theorem nearPrior_of_small {A : Matrix (Fin n) (Fin n) ℝ} {B : Matrix (Fin n) (Fin m) ℝ} {mean : Fin n → ℝ} {p : GPPred n} {a : Fin m → ℝ}
    {M : Matrix (Fin m) (Fin m) ℝ} {eps delta : ℝ} (hd : 0 ≤ delta) (hB : ∀ i j, |B i j| ≤ delta) (h1 : delta * ∑ j, |a j| ≤ eps)
    (h2 : delta * delta * ∑ a, ∑ b, |M a b| ≤ eps) (hmu : ∀ i, p.mu i = (B *ᵥ a) i + mean i) (hcov : p.cov = A - B * (M * Bᵀ))
    (hsig : ∀ i, p.sigma i = max 0 (p.cov i i)) : NearPrior eps mean A p := by
  have hc : ∀ i j, |p.cov i j - A i j| ≤ eps := fun i j => by
    rw [hcov, Matrix.sub_apply, sub_sub_cancel_left, abs_neg]
    exact (sandwich_small hd hB M i j).trans h2
  refine fun i => ⟨?_, ?_, hc i⟩
  · rw [hmu, add_sub_cancel_right]
    exact (mulVec_small hB a i).trans h1
  · rw [hsig]
    refine le_trans ?_ (hc i i)
    have := abs_max_sub_max_le_abs (p.cov i i) (A i i) 0
    rwa [max_comm (p.cov i i), max_comm (A i i)] at this

theorem exists_delta {a b eps : ℝ} (ha : 0 ≤ a) (hb : 0 ≤ b) (he : 0 < eps) : ∃ delta > 0, delta * a ≤ eps ∧ delta * delta * b ≤ eps := by
  refine ⟨min 1 (eps / (1 + a + b)), by positivity, ?_, ?_⟩
  · have h : min 1 (eps / (1 + a + b)) ≤ eps / (1 + a + b) := min_le_right _ _
    refine (mul_le_mul_of_nonneg_right h ha).trans ?_
    rw [div_mul_eq_mul_div, div_le_iff₀ (by positivity)]
    nlinarith
  · have h : min 1 (eps / (1 + a + b)) ≤ eps / (1 + a + b) := min_le_right _ _
    have h1 : min 1 (eps / (1 + a + b)) ≤ 1 := min_le_left _ _
    have h0 : 0 ≤ min 1 (eps / (1 + a + b)) := by positivity
    have h2 : min 1 (eps / (1 + a + b)) * min 1 (eps / (1 + a + b)) ≤ eps / (1 + a + b) := by nlinarith
    refine (mul_le_mul_of_nonneg_right h2 hb).trans ?_
    rw [div_mul_eq_mul_div, div_le_iff₀ (by positivity)]
    nlinarith

/-- Products with the inverse of a matrix that is at least `s0` times the unit matrix. -/
theorem inv_products {M : Matrix (Fin m) (Fin m) ℝ} (hM : M.PosDef) {s0 : ℝ} (h0 : 0 < s0) (h : ∀ x : Fin m → ℝ, s0 * (x ⬝ᵥ x) ≤ x ⬝ᵥ (M *ᵥ x))
    (b y : Fin m → ℝ) : |b ⬝ᵥ (M⁻¹ *ᵥ y)| ≤ Real.sqrt (b ⬝ᵥ b) * Real.sqrt (y ⬝ᵥ y) / s0 := by
  have hu : IsUnit M.det := (Matrix.isUnit_iff_isUnit_det _).1 hM.isUnit
  set a := M⁻¹ *ᵥ y with ha
  have hMa : M *ᵥ a = y := by rw [ha, mulVec_mulVec, mul_nonsing_inv _ hu, one_mulVec]
  have cs : ∀ u v : Fin m → ℝ, |u ⬝ᵥ v| ≤ Real.sqrt (u ⬝ᵥ u) * Real.sqrt (v ⬝ᵥ v) := fun u v => by
    rw [← Real.sqrt_mul (by simpa using dotProduct_star_self_nonneg u)]
    refine Real.abs_le_sqrt ?_
    have := Finset.sum_mul_sq_le_sq_mul_sq Finset.univ u v
    simpa [dotProduct, pow_two] using this
  have haa : 0 ≤ a ⬝ᵥ a := by simpa using dotProduct_star_self_nonneg a
  have h1 := h a
  rw [hMa] at h1
  have h2 := (le_abs_self _).trans (cs a y)
  have h3 := Real.mul_self_sqrt haa
  have h4 := Real.sqrt_nonneg (a ⬝ᵥ a)
  have h5 := Real.sqrt_nonneg (y ⬝ᵥ y)
  have h6 : s0 * Real.sqrt (a ⬝ᵥ a) ≤ Real.sqrt (y ⬝ᵥ y) := by
    rcases h4.eq_or_lt with h | h
    · rw [← h]; simpa using h5
    · have : s0 * Real.sqrt (a ⬝ᵥ a) * Real.sqrt (a ⬝ᵥ a) ≤ Real.sqrt (y ⬝ᵥ y) * Real.sqrt (a ⬝ᵥ a) := by nlinarith
      exact le_of_mul_le_mul_right this h
  refine (cs b a).trans ?_
  rw [mul_div_assoc]
  refine mul_le_mul_of_nonneg_left ?_ (Real.sqrt_nonneg _)
  rw [le_div_iff₀ h0]
  linarith

end Lop
