import Verif.Proofs.FindMode
import Verif.Spec.FindMode

/-! # Helper lemmas for the convergence of `find_mode` -/

namespace Lop

open Matrix Spec

/-! ### Curvature of the pair likelihood -/

theorem mono_mratio_add : Monotone fun x => mratio x + x := by
  have hd : ∀ x, HasDerivAt (fun x => mratio x + x) (-mcurv x + 1) x := fun x =>
    (hasDerivAt_mratio x).add (hasDerivAt_id x)
  refine monotone_of_deriv_nonneg (fun x => (hd x).differentiableAt) fun x => ?_
  rw [(hd x).deriv]
  linarith [mcurv_le_one x]

theorem logPhi_lower (z h : ℝ) : Real.log (Phi z) + h * mratio z - h ^ 2 / 2 ≤ Real.log (Phi (z + h)) := by
  set g : ℝ → ℝ := fun t => Real.log (Phi (z + t)) - t * mratio z + t ^ 2 / 2 with hg
  have hd : ∀ t, HasDerivAt g (mratio (z + t) - mratio z + t) t := by
    intro t
    have h1 : HasDerivAt (fun t => Real.log (Phi (z + t))) (mratio (z + t)) t := by
      have := (hasDerivAt_logPhi (z + t)).comp_const_add z t
      exact this
    have h2 : HasDerivAt (fun t : ℝ => t * mratio z) (mratio z) t := by
      simpa using (hasDerivAt_id t).mul_const (mratio z)
    have h3 : HasDerivAt (fun t : ℝ => t ^ 2 / 2) t t := by
      have := (hasDerivAt_pow 2 t).div_const 2
      refine this.congr_deriv ?_
      simp
    exact (h1.sub h2).add h3
  have hsign : ∀ t, (0 ≤ t → 0 ≤ mratio (z + t) - mratio z + t) ∧ (t ≤ 0 → mratio (z + t) - mratio z + t ≤ 0) := by
    intro t
    constructor
    · intro ht
      have := mono_mratio_add (by linarith : z ≤ z + t)
      simp only at this
      linarith
    · intro ht
      have := mono_mratio_add (by linarith : z + t ≤ z)
      simp only at this
      linarith
  have hcont : Continuous g := continuous_iff_continuousAt.2 fun t => (hd t).continuousAt
  have key : g 0 ≤ g h := by
    rcases le_total 0 h with h0 | h0
    · refine monotoneOn_of_deriv_nonneg (convex_Icc 0 h) hcont.continuousOn
        (fun t _ => (hd t).differentiableAt.differentiableWithinAt) (fun t ht => ?_) ⟨le_rfl, h0⟩ ⟨h0, le_rfl⟩ h0
      rw [interior_Icc] at ht
      rw [(hd t).deriv]
      exact (hsign t).1 ht.1.le
    · refine antitoneOn_of_deriv_nonpos (convex_Icc h 0) hcont.continuousOn
        (fun t _ => (hd t).differentiableAt.differentiableWithinAt) (fun t ht => ?_) ⟨le_rfl, h0⟩ ⟨h0, le_rfl⟩ h0
      rw [interior_Icc] at ht
      rw [(hd t).deriv]
      exact (hsign t).2 ht.2.le
  simp only [hg] at key
  simp at key
  linarith

section pairs
variable {n : Nat}

theorem pairZ_line (sigma : ℝ) (F s : Fin n → ℝ) (t : ℝ) (p : IPair n) :
    pairZ sigma (F + t • s) p = pairZ sigma F p + t * pairZ sigma s p := by
  simp only [pairZ, Pi.add_apply, Pi.smul_apply, smul_eq_mul]
  ring

theorem pairLogLik_lower (sigma : ℝ) (y : List (IPair n)) (F s : Fin n → ℝ) (t : ℝ) :
    pairLogLik sigma y F + t * (y.map fun p => mratio (pairZ sigma F p) * pairZ sigma s p).sum -
      t ^ 2 / 2 * (y.map fun p => pairZ sigma s p ^ 2).sum ≤ pairLogLik sigma y (F + t • s) := by
  unfold pairLogLik
  induction y with
  | nil => simp
  | cons p y ih =>
    simp only [List.map_cons, List.sum_cons]
    have := logPhi_lower (pairZ sigma F p) (t * pairZ sigma s p)
    rw [pairZ_line]
    nlinarith

theorem prefDerv_dot (sigma : ℝ) (y : List (IPair n)) (F s : Fin n → ℝ)
    (h : ∀ p ∈ y, -30 < zk sigma F p ∧ zk sigma F p < 100) :
    prefDerv sigma y F ⬝ᵥ s = (y.map fun p => mratio (pairZ sigma F p) * pairZ sigma s p).sum := by
  simp only [dotProduct, prefDerv_apply, sum_map_mul]
  rw [sum_finset_list]
  refine sum_map_congr fun p hp => ?_
  have e : ∀ G : Fin n → ℝ, zk sigma G p = pairZ sigma G p := by
    intro G
    simp only [zk, pairZ, isqrt2sig]
    ring
  rw [pdfCdfRatio_of_mem (h p hp).1.le (h p hp).2.le, e]
  have : ∑ i, (p.dk * mratio (pairZ sigma F p) * isqrt2sig sigma) * inc p i * s i =
      (p.dk * mratio (pairZ sigma F p) * isqrt2sig sigma) * ∑ i, inc p i * s i := by
    rw [Finset.mul_sum]
    exact Finset.sum_congr rfl fun i _ => by ring
  rw [this, sum_inc_mul]
  simp only [pairZ, isqrt2sig]
  ring

/-- Cauchy-Schwarz for `K` and its inverse. -/
theorem cauchy_posDef {K : Matrix (Fin n) (Fin n) ℝ} (hK : K.PosDef) (x g : Fin n → ℝ) :
    (g ⬝ᵥ x) ^ 2 ≤ (g ⬝ᵥ (K *ᵥ g)) * (x ⬝ᵥ (K⁻¹ *ᵥ x)) := by
  have ha : 0 ≤ g ⬝ᵥ (K *ᵥ g) := by
    have := hK.posSemidef.dotProduct_mulVec_nonneg g
    simpa only [star_trivial] using this
  have hb : 0 ≤ x ⬝ᵥ (K⁻¹ *ᵥ x) := by
    have := hK.inv.posSemidef.dotProduct_mulVec_nonneg x
    simpa only [star_trivial] using this
  have h : ∀ t : ℝ, 0 ≤ (g ⬝ᵥ (K *ᵥ g)) * (t * t) + (-(2 * (g ⬝ᵥ x))) * t + x ⬝ᵥ (K⁻¹ *ᵥ x) := by
    intro t
    have := young_posDef hK x (t • g)
    simp only [mulVec_smul, dotProduct_smul, smul_dotProduct, smul_eq_mul] at this
    nlinarith
  have := discrim_le_zero h
  unfold discrim at this
  nlinarith

theorem pairZ_sq_le {sigma : ℝ} {K : Matrix (Fin n) (Fin n) ℝ} (hK : K.PosDef) (s : Fin n → ℝ) (p : IPair n) :
    pairZ sigma s p ^ 2 ≤ (p.dk : ℝ) ^ 2 * (K p.u p.u + K p.v p.v - 2 * K p.u p.v) / (2 * sigma ^ 2) *
      (s ⬝ᵥ (K⁻¹ *ᵥ s)) := by
  have h := cauchy_posDef hK s (Pi.single p.v 1 - Pi.single p.u 1)
  have hsym : K p.v p.u = K p.u p.v := by
    conv_lhs => rw [← posDef_transpose hK]
    rfl
  have e1 : (Pi.single p.v (1 : ℝ) - Pi.single p.u 1) ⬝ᵥ s = s p.v - s p.u := by
    rw [sub_dotProduct]; simp
  have e2 : (Pi.single p.v (1 : ℝ) - Pi.single p.u 1) ⬝ᵥ (K *ᵥ (Pi.single p.v 1 - Pi.single p.u 1)) =
      K p.u p.u + K p.v p.v - 2 * K p.u p.v := by
    rw [mulVec_sub, sub_dotProduct, dotProduct_sub, dotProduct_sub]
    simp [mulVec_single, hsym]
    ring
  rw [e1, e2] at h
  have h2 : Real.sqrt 2 ^ 2 = 2 := Real.sq_sqrt (by norm_num)
  rw [pairZ, div_pow, mul_pow, mul_pow, h2, div_mul_eq_mul_div]
  refine div_le_div_of_nonneg_right ?_ (by positivity)
  nlinarith [sq_nonneg (p.dk : ℝ)]

end pairs

/-! ### Gain of the line search -/

theorem strong_left {g : ℝ → ℝ} {mu lo hi a b : ℝ} (hg : ConcaveOn ℝ (Set.Icc lo hi) fun x => g x + mu / 2 * x ^ 2)
    (h1 : lo ≤ a) (h2 : a < b) (h3 : b ≤ hi) (h : g a ≤ g b) :
    g lo + mu / 2 * ((a - lo) * (b - lo)) ≤ g a := by
  have hd : 0 < b - lo := by linarith
  have := hg.2 (⟨le_rfl, by linarith⟩ : lo ∈ Set.Icc lo hi) (⟨by linarith, h3⟩ : b ∈ Set.Icc lo hi)
    (div_nonneg (by linarith) hd.le : 0 ≤ (b - a) / (b - lo))
    (div_nonneg (by linarith) hd.le : 0 ≤ (a - lo) / (b - lo)) (by field_simp; ring)
  have e : ((b - a) / (b - lo)) • lo + ((a - lo) / (b - lo)) • b = a := by
    simp only [smul_eq_mul]
    field_simp
    ring
  rw [e] at this
  simp only [smul_eq_mul] at this
  rw [div_mul_eq_mul_div, div_mul_eq_mul_div _ _ (g b + _), ← add_div, div_le_iff₀ hd] at this
  have q : 0 ≤ (a - lo) * (g b - g a) := mul_nonneg (by linarith) (by linarith)
  have : (b - a) * (g lo + mu / 2 * ((a - lo) * (b - lo))) ≤ (b - a) * g a := by nlinarith
  exact le_of_mul_le_mul_left this (by linarith)

theorem binaryLoop_gain {g : ℝ → ℝ} {mu lo hi w : ℝ} (hmu : 0 ≤ mu) (hw : 0 < w)
    (hg : ConcaveOn ℝ (Set.Icc lo hi) g) (hs : ConcaveOn ℝ (Set.Icc lo hi) fun x => g x + mu / 2 * x ^ 2)
    (k : Nat) (a b : ℝ) (ha : lo ≤ a) (hab : w * 2 ^ k ≤ b - a) (hb : b ≤ hi)
    (h : a = lo ∨ ∀ x, a ≤ x → x ≤ (a + b) / 2 → g lo + 3 / 8 * mu * w ^ 2 ≤ g x) :
    (binaryLoop g k a b).1 = lo ∨
      g lo + 3 / 8 * mu * w ^ 2 ≤ g ((1 / 2) * ((binaryLoop g k a b).1 + (binaryLoop g k a b).2)) := by
  induction k generalizing a b with
  | zero =>
    simp only [binaryLoop]
    rcases h with h | h
    · exact .inl h
    · refine .inr (h _ ?_ (le_of_eq (by ring)))
      simp at hab
      linarith
  | succ k ih =>
    have hpow : (1 : ℝ) ≤ 2 ^ k := one_le_pow₀ (by norm_num)
    rw [pow_succ] at hab
    have hwk : w ≤ w * 2 ^ k := le_mul_of_one_le_right hw.le hpow
    simp only [binaryLoop]
    split_ifs with hc
    · refine ih a _ ha (by linarith) (by linarith) (h.imp id fun h x h1 h2 => h x h1 (by linarith))
    · refine ih _ b (by linarith) (by linarith) hb (.inr fun x h1 h2 => ?_)
      have e1 := (concave_left hg (a := (b - a) * (1 / 4) + a) (b := (b - a) * (3 / 4) + a) (by linarith) (by linarith)
        (by linarith) (not_lt.1 hc) (x := x) (by linarith) (by linarith)).2
      have e2 := strong_left hs (a := (b - a) * (1 / 4) + a) (b := (b - a) * (3 / 4) + a) (by linarith) (by linarith)
        (by linarith) (not_lt.1 hc)
      have e3 : (w / 2) * (3 / 2 * w) ≤ ((b - a) * (1 / 4) + a - lo) * ((b - a) * (3 / 4) + a - lo) :=
        mul_le_mul (by linarith) (by linarith) (by linarith) (by linarith)
      have e4 := mul_le_mul_of_nonneg_left e3 (by linarith : 0 ≤ mu / 2)
      nlinarith

end Lop
