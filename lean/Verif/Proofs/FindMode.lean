import Verif.Model.FindMode
import Verif.Proofs.Laplace
import Verif.Proofs.Optim
import Verif.Proofs.PrefProbit
import Mathlib.Analysis.Calculus.Deriv.MeanValue

/-! # Helper lemmas for `find_mode` -/

namespace Lop

open Matrix Spec

/-! ### The curvature of the probit is at most 1 -/

theorem phi_le_inv_sq {z : ℝ} (hz : z ≠ 0) : phi z ≤ 2 / z ^ 2 := by
  have h0 : 0 < z ^ 2 := by positivity
  have h1 : Real.exp (-(z ^ 2) / 2) ≤ 2 / z ^ 2 := by
    have h := Real.add_one_le_exp (z ^ 2 / 2)
    rw [neg_div, Real.exp_neg, inv_le_comm₀ (Real.exp_pos _) (by positivity), inv_div]
    linarith
  have h2 : 1 < Real.sqrt (2 * Real.pi) := by
    rw [Real.lt_sqrt (by norm_num)]
    nlinarith [Real.pi_gt_three]
  unfold phi
  calc Real.exp (-(z ^ 2) / 2) / Real.sqrt (2 * Real.pi) ≤ Real.exp (-(z ^ 2) / 2) :=
        div_le_self (Real.exp_pos _).le h2.le
    _ ≤ _ := h1

private theorem nonneg_of_mono {k : ℝ → ℝ} (hk : Monotone k) (h : ∀ z < 0, -(2 / -z) ≤ k z) (z : ℝ) : 0 ≤ k z := by
  by_contra hc
  push Not at hc
  set w := min (z - 1) (min (-1) (3 / k z)) with hw
  have hwz : w ≤ z := by linarith [min_le_left (z - 1) (min (-1) (3 / k z))]
  have hw1 : w ≤ -1 := (min_le_right _ _).trans (min_le_left _ _)
  have hw2 : w ≤ 3 / k z := (min_le_right _ _).trans (min_le_right _ _)
  have h1 := h w (by linarith)
  have h2 := hk hwz
  have h3 : k z ≥ -(2 / -w) := by linarith
  have h4 : 3 ≤ w * k z := by rwa [le_div_iff_of_neg hc] at hw2
  have hw0 : 0 < -w := by linarith
  have h5 : 2 / -w * -w = 2 := div_mul_cancel₀ _ hw0.ne'
  nlinarith

theorem mills_two (z : ℝ) : 0 ≤ Phi z * (1 + z ^ 2) + z * phi z := by
  have hd : ∀ x, HasDerivAt (fun z => Phi z * (1 + z ^ 2) + z * phi z) (2 * (x * Phi x + phi x)) x := by
    intro x
    have h1 := (hasDerivAt_Phi x).mul (((hasDerivAt_id x).pow 2).const_add 1)
    have h2 := (hasDerivAt_id x).mul (hasDerivAt_phi x)
    refine (h1.add h2).congr_deriv ?_
    simp only [id, Nat.cast_ofNat, Pi.pow_apply]
    ring
  refine nonneg_of_mono (monotone_of_deriv_nonneg (fun x => (hd x).differentiableAt) fun x => ?_) (fun x hx => ?_) z
  · rw [(hd x).deriv]
    linarith [mills x]
  · have h1 := phi_le_inv_sq hx.ne
    have h2 : 0 ≤ Phi x * (1 + x ^ 2) := mul_nonneg (Phi_pos x).le (by positivity)
    have h3 : x * (2 / x ^ 2) ≤ x * phi x := mul_le_mul_of_nonpos_left h1 hx.le
    have h4 : x * (2 / x ^ 2) = -(2 / -x) := by field_simp
    linarith

theorem mcurv_le_one (z : ℝ) : mcurv z ≤ 1 := by
  have hd : ∀ x, HasDerivAt (fun z => Phi z * Phi z - z * phi z * Phi z - phi z * phi z)
      (phi x * (Phi x * (1 + x ^ 2) + x * phi x)) x := by
    intro x
    have h1 := (hasDerivAt_Phi x).mul (hasDerivAt_Phi x)
    have h2 := ((hasDerivAt_id x).mul (hasDerivAt_phi x)).mul (hasDerivAt_Phi x)
    have h3 := (hasDerivAt_phi x).mul (hasDerivAt_phi x)
    refine ((h1.sub h2).sub h3).congr_deriv ?_
    simp only [id, Pi.mul_apply]
    ring
  have h : 0 ≤ Phi z * Phi z - z * phi z * Phi z - phi z * phi z := by
    refine nonneg_of_mono (k := fun z => Phi z * Phi z - z * phi z * Phi z - phi z * phi z)
      (monotone_of_deriv_nonneg (fun x => (hd x).differentiableAt) fun x => ?_) (fun x hx => ?_) z
    · rw [(hd x).deriv]
      exact mul_nonneg (phi_pos x).le (mills_two x)
    · have hp := phi_pos x
      have h1 : 0 ≤ Phi x * Phi x := mul_self_nonneg _
      have h2 : x * phi x * Phi x ≤ 0 := by
        have := mul_pos hp (Phi_pos x)
        nlinarith
      have h3 : phi x * phi x ≤ 2 / -x := by
        have hl := phi_lt_one x
        rcases le_or_gt (-1) x with h | h
        · have : 2 ≤ 2 / -x := by
            rw [le_div_iff₀ (by linarith)]
            linarith
          nlinarith
        · have e := phi_le_inv_sq hx.ne
          have : 2 / x ^ 2 ≤ 2 / -x := by
            rw [div_le_div_iff_of_pos_left (by norm_num) (by nlinarith) (by linarith)]
            nlinarith
          nlinarith
      linarith
  have hP := Phi_pos z
  have e : mcurv z = (z * phi z * Phi z + phi z * phi z) / (Phi z * Phi z) := by
    simp only [mcurv, mratio]
    field_simp
  rw [e, div_le_one (by positivity)]
  linarith

/-! ### Line search on a concave objective -/

section search
variable {R : Type*} [Field R] [LinearOrder R] [IsStrictOrderedRing R]

theorem concave_left {g : R → R} {lo hi a b : R} (hg : ConcaveOn R (Set.Icc lo hi) g) (h1 : lo ≤ a) (h2 : a < b)
    (h3 : b ≤ hi) (h : g a ≤ g b) {x : R} (hx1 : a ≤ x) (hx2 : x ≤ b) : g lo ≤ g a ∧ g a ≤ g x := by
  have hlo : lo ∈ Set.Icc lo hi := ⟨le_rfl, by linarith⟩
  have ha : a ∈ Set.Icc lo hi := ⟨h1, by linarith⟩
  have hb : b ∈ Set.Icc lo hi := ⟨by linarith, h3⟩
  constructor
  · rcases h1.eq_or_lt with h0 | h0
    · rw [h0]
    have hd : 0 < b - lo := by linarith
    have := hg.2 hlo hb (div_nonneg (by linarith) hd.le : 0 ≤ (b - a) / (b - lo))
      (div_nonneg (by linarith) hd.le : 0 ≤ (a - lo) / (b - lo)) (by field_simp; ring)
    have e : ((b - a) / (b - lo)) • lo + ((a - lo) / (b - lo)) • b = a := by
      simp only [smul_eq_mul]
      field_simp
      ring
    rw [e] at this
    simp only [smul_eq_mul] at this
    rw [div_mul_eq_mul_div, div_mul_eq_mul_div, ← add_div, div_le_iff₀ hd] at this
    by_contra hc
    push Not at hc
    have q1 : 0 < (b - a) * (g lo - g a) := mul_pos (by linarith) (by linarith)
    have q2 : 0 ≤ (a - lo) * (g b - g a) := mul_nonneg (by linarith) (by linarith)
    nlinarith
  · have hd : 0 < b - a := by linarith
    have := hg.2 ha hb (div_nonneg (by linarith) hd.le : 0 ≤ (b - x) / (b - a))
      (div_nonneg (by linarith) hd.le : 0 ≤ (x - a) / (b - a)) (by field_simp; ring)
    have e : ((b - x) / (b - a)) • a + ((x - a) / (b - a)) • b = x := by
      simp only [smul_eq_mul]
      field_simp
      ring
    rw [e] at this
    simp only [smul_eq_mul] at this
    rw [div_mul_eq_mul_div, div_mul_eq_mul_div, ← add_div, div_le_iff₀ hd] at this
    have q2 : 0 ≤ (x - a) * (g b - g a) := mul_nonneg (by linarith) (by linarith)
    nlinarith

theorem binaryLoop_no_descent {g : R → R} {lo hi : R} (hg : ConcaveOn R (Set.Icc lo hi) g) (k : Nat) (a b : R)
    (ha : lo ≤ a) (hab : a < b) (hb : b ≤ hi) (h : a = lo ∨ ∀ x, a ≤ x → x ≤ (a + b) / 2 → g lo ≤ g x) :
    (binaryLoop g k a b).1 = lo ∨ g lo ≤ g ((1 / 2) * ((binaryLoop g k a b).1 + (binaryLoop g k a b).2)) := by
  induction k generalizing a b with
  | zero =>
    simp only [binaryLoop]
    rcases h with h | h
    · exact .inl h
    · refine .inr (h _ (by linarith) (le_of_eq (by ring)))
  | succ k ih =>
    simp only [binaryLoop]
    split_ifs with hc
    · refine ih a _ ha (by linarith) (by linarith) (h.imp id fun h x h1 h2 => h x h1 (by linarith))
    · refine ih _ b (by linarith) (by linarith) hb (.inr fun x h1 h2 => ?_)
      have := concave_left hg (a := (b - a) * (1 / 4) + a) (b := (b - a) * (3 / 4) + a) (by linarith) (by linarith)
        (by linarith) (not_lt.1 hc) (x := x) (by linarith) (by linarith)
      exact this.1.trans this.2

end search

/-- The search depends on comparisons only. -/
theorem binaryLoop_coe {R : Type*} [Field R] (g : R → ℝ) (k : Nat) (a b : R) :
    binaryLoop (fun x => (g x : WithBot ℝ)) k a b = binaryLoop g k a b := by
  induction k generalizing a b with
  | zero => rfl
  | succ k ih =>
    simp only [binaryLoop, gt_iff_lt, WithBot.coe_lt_coe, ih]

/-- The search depends on the objective between the ends only. -/
theorem binaryLoop_congr {f g : ℝ → ℝ} (k : Nat) (a b : ℝ) (hab : a ≤ b) (h : ∀ x, a ≤ x → x ≤ b → f x = g x) :
    binaryLoop f k a b = binaryLoop g k a b := by
  induction k generalizing a b with
  | zero => rfl
  | succ k ih =>
    simp only [binaryLoop]
    rw [h _ (by linarith) (by linarith), h _ (by linarith) (by linarith),
      ih _ _ (by linarith) (fun x h1 h2 => h x h1 (by linarith)),
      ih _ _ (by linarith) (fun x h1 h2 => h x (by linarith) h2)]

/-! ### The loop -/

theorem findModeLoop_last {σ : Type*} (step : σ → Except PyErr (σ × Bool)) (ml fuel : Nat) (F F' : σ) (go : Bool)
    (loops l : Nat) (h : findModeLoop step ml fuel F go loops = some (.ok (F', l))) :
    (go = false ∧ F' = F ∧ l = loops) ∨
      (loops < l ∧ ∃ F1 b, step F1 = .ok (F', b) ∧ (l ≤ ml → b = false)) := by
  induction fuel generalizing F go loops with
  | zero => simp [findModeLoop] at h
  | succ fuel ih =>
    unfold findModeLoop at h
    cases go with
    | false =>
      simp only [Bool.false_eq_true, if_false, Option.some.injEq, Except.ok.injEq, Prod.mk.injEq] at h
      exact .inl ⟨rfl, h.1.symm, h.2.symm⟩
    | true =>
      simp only [if_true] at h
      cases hs : step F with
      | error e => rw [hs] at h; simp at h
      | ok p =>
        obtain ⟨F1, b⟩ := p
        rw [hs] at h
        simp only at h
        split_ifs at h with hc
        · simp only [Option.some.injEq, Except.ok.injEq, Prod.mk.injEq] at h
          obtain ⟨rfl, rfl⟩ := h
          exact .inr ⟨by omega, F, b, hs, fun h => by omega⟩
        · rcases ih _ _ _ h with ⟨rfl, rfl, rfl⟩ | ⟨h1, h2⟩
          · exact .inr ⟨by omega, F, false, hs, fun _ => rfl⟩
          · exact .inr ⟨by omega, h2⟩

/-! ### Distance from the mode -/

section mode
variable {n : Nat}

theorem posDef_transpose {K : Matrix (Fin n) (Fin n) ℝ} (hK : K.PosDef) : Kᵀ = K := by
  have := hK.isHermitian
  rwa [Matrix.IsHermitian, Matrix.conjTranspose_eq_transpose_of_trivial] at this

/-- `0 ≤ |x - K g|²` in the norm of `K⁻¹`. -/
theorem young_posDef {K : Matrix (Fin n) (Fin n) ℝ} (hK : K.PosDef) (x g : Fin n → ℝ) :
    2 * (g ⬝ᵥ x) ≤ x ⬝ᵥ (K⁻¹ *ᵥ x) + g ⬝ᵥ (K *ᵥ g) := by
  have hu : IsUnit K.det := (Matrix.isUnit_iff_isUnit_det _).1 hK.isUnit
  have h := hK.inv.posSemidef.dotProduct_mulVec_nonneg (x - K *ᵥ g)
  simp only [star_trivial] at h
  have hs := posDef_transpose hK.inv
  have e1 : K⁻¹ *ᵥ (K *ᵥ g) = g := by rw [mulVec_mulVec, nonsing_inv_mul _ hu, one_mulVec]
  have e2 : (K *ᵥ g) ⬝ᵥ (K⁻¹ *ᵥ x) = g ⬝ᵥ x := by
    rw [dotProduct_mulVec, ← mulVec_transpose, hs, e1]
  rw [mulVec_sub, e1, dotProduct_sub, sub_dotProduct, sub_dotProduct, e2, dotProduct_comm x g,
    dotProduct_comm (K *ᵥ g) g] at h
  linarith

theorem entry_sq_le {K : Matrix (Fin n) (Fin n) ℝ} (hK : K.PosDef) (x : Fin n → ℝ) (i : Fin n) :
    x i ^ 2 ≤ K i i * (x ⬝ᵥ (K⁻¹ *ᵥ x)) := by
  have hp : 0 < K i i := hK.diag_pos
  have h := young_posDef hK x (Pi.single i (x i / K i i))
  have e1 : Pi.single i (x i / K i i) ⬝ᵥ x = x i / K i i * x i := by simp
  have e2 : Pi.single i (x i / K i i) ⬝ᵥ (K *ᵥ Pi.single i (x i / K i i)) = x i / K i i * (x i / K i i) * K i i := by
    simp [mulVec_single]
    ring
  rw [e1, e2] at h
  have : x i ^ 2 / K i i ≤ x ⬝ᵥ (K⁻¹ *ᵥ x) := by
    have e3 : x i / K i i * x i = x i ^ 2 / K i i := by ring
    have e4 : x i / K i i * (x i / K i i) * K i i = x i ^ 2 / K i i := by field_simp
    rw [e3, e4] at h
    linarith
  rw [div_le_iff₀ hp] at this
  linarith

theorem quad_le_sum (A : Matrix (Fin n) (Fin n) ℝ) {x : Fin n → ℝ} {c : ℝ} (hx : ∀ i, |x i| ≤ c) :
    x ⬝ᵥ (A *ᵥ x) ≤ c ^ 2 * ∑ i, ∑ j, |A i j| := by
  have e : x ⬝ᵥ (A *ᵥ x) = ∑ i, ∑ j, x i * (A i j * x j) := by
    simp only [dotProduct, mulVec, Finset.mul_sum]
  rw [e, Finset.mul_sum]
  refine Finset.sum_le_sum fun i _ => ?_
  rw [Finset.mul_sum]
  refine Finset.sum_le_sum fun j _ => ?_
  have h1 : x i * (A i j * x j) ≤ |x i| * |x j| * |A i j| := by
    have := le_abs_self (x i * (A i j * x j))
    rw [abs_mul, abs_mul] at this
    linarith
  have h2 : |x i| * |x j| ≤ c ^ 2 := by
    rw [sq]
    exact mul_le_mul (hx i) (hx j) (abs_nonneg _) ((abs_nonneg _).trans (hx i))
  exact h1.trans (mul_le_mul_of_nonneg_right h2 (abs_nonneg _))

/-- The loss at a non-maximiser, from strong concavity. -/
theorem strong_max {K : Matrix (Fin n) (Fin n) ℝ} (hK : K.PosDef) {L : (Fin n → ℝ) → ℝ}
    (hL : ConcaveOn ℝ Set.univ L) {m F : Fin n → ℝ}
    (hm : ∀ G, L G - 1 / 2 * (G ⬝ᵥ (K⁻¹ *ᵥ G)) ≤ L m - 1 / 2 * (m ⬝ᵥ (K⁻¹ *ᵥ m))) :
    L F - 1 / 2 * (F ⬝ᵥ (K⁻¹ *ᵥ F)) ≤
      L m - 1 / 2 * (m ⬝ᵥ (K⁻¹ *ᵥ m)) - 1 / 2 * ((F - m) ⬝ᵥ (K⁻¹ *ᵥ (F - m))) := by
  set q := (F - m) ⬝ᵥ (K⁻¹ *ᵥ (F - m)) with hq
  have hs := posDef_transpose hK.inv
  have hcross : m ⬝ᵥ (K⁻¹ *ᵥ F) = F ⬝ᵥ (K⁻¹ *ᵥ m) := by
    rw [dotProduct_mulVec, ← mulVec_transpose, hs, dotProduct_comm]
  have hqe : q = F ⬝ᵥ (K⁻¹ *ᵥ F) - 2 * (F ⬝ᵥ (K⁻¹ *ᵥ m)) + m ⬝ᵥ (K⁻¹ *ᵥ m) := by
    rw [hq, mulVec_sub, dotProduct_sub, sub_dotProduct, sub_dotProduct, hcross]
    ring
  have key : ∀ t : ℝ, 0 < t → t ≤ 1 →
      L F - 1 / 2 * (F ⬝ᵥ (K⁻¹ *ᵥ F)) + 1 / 2 * (1 - t) * q ≤ L m - 1 / 2 * (m ⬝ᵥ (K⁻¹ *ᵥ m)) := by
    intro t ht ht1
    have h1 := hL.2 (Set.mem_univ m) (Set.mem_univ F) (by linarith : 0 ≤ 1 - t) ht.le (by ring)
    have h2 := hm ((1 - t) • m + t • F)
    have e : ((1 - t) • m + t • F) ⬝ᵥ (K⁻¹ *ᵥ ((1 - t) • m + t • F)) =
        (1 - t) ^ 2 * (m ⬝ᵥ (K⁻¹ *ᵥ m)) + 2 * t * (1 - t) * (F ⬝ᵥ (K⁻¹ *ᵥ m)) + t ^ 2 * (F ⬝ᵥ (K⁻¹ *ᵥ F)) := by
      simp only [mulVec_add, mulVec_smul, dotProduct_add, add_dotProduct, dotProduct_smul, smul_dotProduct, smul_eq_mul,
        hcross]
      ring
    rw [e] at h2
    simp only [smul_eq_mul] at h1
    rw [hqe]
    have : t * (L F - 1 / 2 * (F ⬝ᵥ (K⁻¹ *ᵥ F)) + 1 / 2 * (1 - t) * (F ⬝ᵥ (K⁻¹ *ᵥ F) - 2 * (F ⬝ᵥ (K⁻¹ *ᵥ m)) + m ⬝ᵥ (K⁻¹ *ᵥ m)))
        ≤ t * (L m - 1 / 2 * (m ⬝ᵥ (K⁻¹ *ᵥ m))) := by nlinarith
    exact le_of_mul_le_mul_left this ht
  have hq0 : 0 ≤ q := by
    have := hK.inv.posSemidef.dotProduct_mulVec_nonneg (F - m)
    simpa only [star_trivial] using this
  by_contra hc
  push Not at hc
  set D := L F - 1 / 2 * (F ⬝ᵥ (K⁻¹ *ᵥ F)) - (L m - 1 / 2 * (m ⬝ᵥ (K⁻¹ *ᵥ m))) with hD
  have hpos : 0 < D + 1 / 2 * q := by linarith
  have := key (min 1 ((D + 1 / 2 * q) / (q + 1))) (lt_min one_pos (div_pos hpos (by linarith))) (min_le_left _ _)
  have hmul : min 1 ((D + 1 / 2 * q) / (q + 1)) * q ≤ D + 1 / 2 * q := by
    calc min 1 ((D + 1 / 2 * q) / (q + 1)) * q ≤ (D + 1 / 2 * q) / (q + 1) * q :=
          mul_le_mul_of_nonneg_right (min_le_right _ _) hq0
      _ ≤ (D + 1 / 2 * q) / (q + 1) * (q + 1) := by
          refine mul_le_mul_of_nonneg_left (by linarith) (div_nonneg hpos.le (by linarith))
      _ = _ := div_mul_cancel₀ _ (by linarith)
  nlinarith

/-- Where the gradient of a strongly concave function is small, the maximiser is near. -/
theorem near_max {K : Matrix (Fin n) (Fin n) ℝ} (hK : K.PosDef) {L : (Fin n → ℝ) → ℝ}
    (hL : ConcaveOn ℝ Set.univ L) {m F gL : Fin n → ℝ} (hg : IsGradientAt L gL F)
    (hm : ∀ G, L G - 1 / 2 * (G ⬝ᵥ (K⁻¹ *ᵥ G)) ≤ L m - 1 / 2 * (m ⬝ᵥ (K⁻¹ *ᵥ m))) :
    (F - m) ⬝ᵥ (K⁻¹ *ᵥ (F - m)) ≤ (gL - K⁻¹ *ᵥ F) ⬝ᵥ (K *ᵥ (gL - K⁻¹ *ᵥ F)) := by
  have h1 := strong_max hK hL (F := F) hm
  have h2 := concave_tangent hL hg m
  have hs := posDef_transpose hK.inv
  have hcross : m ⬝ᵥ (K⁻¹ *ᵥ F) = F ⬝ᵥ (K⁻¹ *ᵥ m) := by
    rw [dotProduct_mulVec, ← mulVec_transpose, hs, dotProduct_comm]
  have h3 := young_posDef hK (m - F) (gL - K⁻¹ *ᵥ F)
  have e1 : (m - F) ⬝ᵥ (K⁻¹ *ᵥ (m - F)) = (F - m) ⬝ᵥ (K⁻¹ *ᵥ (F - m)) := by
    rw [← neg_sub F m, mulVec_neg, neg_dotProduct, dotProduct_neg, neg_neg]
  have e2 : (gL - K⁻¹ *ᵥ F) ⬝ᵥ (m - F) = gL ⬝ᵥ (m - F) - m ⬝ᵥ (K⁻¹ *ᵥ F) + F ⬝ᵥ (K⁻¹ *ᵥ F) := by
    rw [sub_dotProduct, dotProduct_sub (K⁻¹ *ᵥ F), dotProduct_comm (K⁻¹ *ᵥ F) m, dotProduct_comm (K⁻¹ *ᵥ F) F]
    ring
  have e3 : (F - m) ⬝ᵥ (K⁻¹ *ᵥ (F - m)) =
      F ⬝ᵥ (K⁻¹ *ᵥ F) - 2 * (F ⬝ᵥ (K⁻¹ *ᵥ m)) + m ⬝ᵥ (K⁻¹ *ᵥ m) := by
    rw [mulVec_sub, dotProduct_sub, sub_dotProduct, sub_dotProduct, hcross]
    ring
  rw [e1] at h3
  rw [e2] at h3
  linarith

theorem abs_list_sum_le (l : List ℝ) : |l.sum| ≤ (l.map fun x => |x|).sum := by
  induction l with
  | nil => simp
  | cons a l ih =>
    simp only [List.sum_cons, List.map_cons]
    exact (abs_add_le _ _).trans (by linarith)

/-- Sizes of `W` for pairs. -/
theorem prefW_bounds {sigma : ℝ} (y : List (IPair n)) {F : Fin n → ℝ}
    (h : ∀ p ∈ y, -30 < zk sigma F p ∧ zk sigma F p < 100) {x : Fin n → ℝ} {c : ℝ} (hc : 0 ≤ c) (hx : ∀ i, |x i| ≤ c) :
    x ⬝ᵥ (prefW sigma y F *ᵥ x) ≤ 4 * c ^ 2 * (y.map fun p => (p.dk : ℝ) ^ 2 * isqrt2sig sigma ^ 2).sum ∧
      ∀ i, |(prefW sigma y F *ᵥ x) i| ≤ 2 * c * (y.map fun p => (p.dk : ℝ) ^ 2 * isqrt2sig sigma ^ 2).sum := by
  set w : IPair n → ℝ := fun p => (p.dk : ℝ) ^ 2 * isqrt2sig sigma ^ 2 * mcurv (zk sigma F p) with hw
  have hM : ∀ i j, prefW sigma y F i j = (y.map fun p => w p * (inc p i * inc p j)).sum := by
    intro i j
    rw [prefW_apply]
    refine sum_map_congr fun p hp => ?_
    rw [pdfCdfRatio_of_mem (h p hp).1.le (h p hp).2.le, pdfCdfRatio2_of_mem (h p hp).1.le (h p hp).2.le]
    rfl
  have hw0 : ∀ p, 0 ≤ w p ∧ w p ≤ (p.dk : ℝ) ^ 2 * isqrt2sig sigma ^ 2 := by
    intro p
    have : 0 ≤ (p.dk : ℝ) ^ 2 * isqrt2sig sigma ^ 2 := by positivity
    exact ⟨mul_nonneg this (mcurv_pos _).le, mul_le_of_le_one_right this (mcurv_le_one _)⟩
  have hdiff : ∀ p : IPair n, |x p.v - x p.u| ≤ 2 * c := by
    intro p
    have := abs_sub (x p.v) (x p.u)
    linarith [hx p.v, hx p.u]
  constructor
  · have e : x ⬝ᵥ (prefW sigma y F *ᵥ x) = ∑ i, x i * ∑ j, prefW sigma y F i j * x j := by
      simp only [dotProduct, mulVec]
    rw [e, pairs_quadratic y w _ hM, ← List.sum_map_mul_left]
    refine List.sum_le_sum fun p _ => ?_
    have h1 : (x p.v - x p.u) ^ 2 ≤ 4 * c ^ 2 := by
      have := sq_le_sq' (by linarith [neg_abs_le (x p.v - x p.u), hdiff p]) ((le_abs_self _).trans (hdiff p))
      linarith
    calc w p * (x p.v - x p.u) ^ 2 ≤ (p.dk : ℝ) ^ 2 * isqrt2sig sigma ^ 2 * (4 * c ^ 2) :=
          mul_le_mul (hw0 p).2 h1 (sq_nonneg _) (by positivity)
      _ = _ := by ring
  · intro i
    have e : (prefW sigma y F *ᵥ x) i = (y.map fun p => w p * inc p i * (x p.v - x p.u)).sum := by
      simp only [mulVec, dotProduct, hM, sum_map_mul]
      rw [sum_finset_list]
      refine sum_map_congr fun p _ => ?_
      rw [← sum_inc_mul, Finset.mul_sum]
      exact Finset.sum_congr rfl fun j _ => by ring
    rw [e, ← List.sum_map_mul_left]
    refine (abs_list_sum_le _).trans ?_
    rw [List.map_map]
    refine List.sum_le_sum fun p _ => ?_
    simp only [Function.comp]
    rw [abs_mul, abs_mul, abs_of_nonneg (hw0 p).1]
    have hi : |inc p i| ≤ 1 := by
      unfold inc
      split_ifs <;> simp
    calc w p * |inc p i| * |x p.v - x p.u| ≤ ((p.dk : ℝ) ^ 2 * isqrt2sig sigma ^ 2 * 1) * (2 * c) := by
          refine mul_le_mul (mul_le_mul (hw0 p).2 hi (abs_nonneg _) (by positivity)) (hdiff p) (abs_nonneg _) ?_
          positivity
      _ = _ := by ring

end mode

end Lop
