import Verif.Proofs.ModeLoop
import Verif.Proofs.OrdConcave
import Mathlib.Topology.Order.IntermediateValue
import Mathlib.Topology.MetricSpace.Lipschitz

/-! # Helper lemmas for the rate of convergence of `find_mode` -/

namespace Lop

open Matrix Spec

theorem logPhi_upper (z h : ℝ) : Real.log (Phi (z + h)) ≤ Real.log (Phi z) + h * mratio z := by
  set g : ℝ → ℝ := fun t => t * mratio z - Real.log (Phi (z + t)) with hg
  have hd : ∀ t, HasDerivAt g (mratio z - mratio (z + t)) t := by
    intro t
    have h1 : HasDerivAt (fun t => Real.log (Phi (z + t))) (mratio (z + t)) t := by
      have := (hasDerivAt_logPhi (z + t)).comp_const_add z t
      exact this
    have h2 : HasDerivAt (fun t : ℝ => t * mratio z) (mratio z) t := by
      simpa using (hasDerivAt_id t).mul_const (mratio z)
    exact h2.sub h1
  have hcont : Continuous g := continuous_iff_continuousAt.2 fun t => (hd t).continuousAt
  have key : g 0 ≤ g h := by
    rcases le_total 0 h with h0 | h0
    · refine monotoneOn_of_deriv_nonneg (convex_Icc 0 h) hcont.continuousOn
        (fun t _ => (hd t).differentiableAt.differentiableWithinAt) (fun t ht => ?_) ⟨le_rfl, h0⟩ ⟨h0, le_rfl⟩ h0
      rw [interior_Icc] at ht
      rw [(hd t).deriv]
      have := mratio_antitone (by linarith [ht.1] : z ≤ z + t)
      linarith
    · refine antitoneOn_of_deriv_nonpos (convex_Icc h 0) hcont.continuousOn
        (fun t _ => (hd t).differentiableAt.differentiableWithinAt) (fun t ht => ?_) ⟨le_rfl, h0⟩ ⟨h0, le_rfl⟩ h0
      rw [interior_Icc] at ht
      rw [(hd t).deriv]
      have := mratio_antitone (by linarith [ht.2] : z + t ≤ z)
      linarith
  simp only [hg] at key
  simp at key
  linarith

/-- Where the line search ends, for an objective whose comparisons locate `m` up to `eta`. -/
theorem binaryLoop_bracket {g : ℝ → ℝ} {lo hi m eta : ℝ}
    (hR : ∀ x h, 0 < h → lo ≤ x - 2 * h → x + 2 * h ≤ hi → g (x + h) < g (x - h) → m ≤ x + eta)
    (hL : ∀ x h, 0 < h → lo ≤ x - 2 * h → x + 2 * h ≤ hi → g (x - h) ≤ g (x + h) → x - eta ≤ m)
    (k : Nat) (a b : ℝ) (ha : lo ≤ a) (hab : a < b) (hb : b ≤ hi) (h1 : a - eta ≤ m) (h2 : m ≤ b + eta) :
    (binaryLoop g k a b).1 - eta ≤ m ∧ m ≤ (binaryLoop g k a b).2 + eta := by
  induction k generalizing a b with
  | zero => exact ⟨h1, h2⟩
  | succ k ih =>
    simp only [binaryLoop]
    have e1 : (b - a) * (1 / 4) + a = (a + b) / 2 - (b - a) / 4 := by ring
    have e2 : (b - a) * (3 / 4) + a = (a + b) / 2 + (b - a) / 4 := by ring
    rw [e1, e2]
    split_ifs with hc
    · refine ih a _ ha (by linarith) (by linarith) h1 ?_
      have := hR ((a + b) / 2) ((b - a) / 4) (by linarith) (by linarith) (by linarith) hc
      linarith
    · refine ih _ b (by linarith) (by linarith) hb ?_ h2
      have := hL ((a + b) / 2) ((b - a) / 4) (by linarith) (by linarith) (by linarith) (not_lt.1 hc)
      linarith

private lemma ratio_bound {h e : ℝ} (h1 : h ≤ 3 / 8) (h2 : 13 / 200 < e) (h3 : e < h) :
    (h - e) ^ 2 < (h + e) ^ 2 / 2 := by
  have : (h - e / 5) * (h - 29 / 5 * e) ≤ 0 := mul_nonpos_of_nonneg_of_nonpos (by linarith) (by linarith)
  nlinarith

/-- The line search gains at least 2/9 of what the derivative at 0 promises, if the curvature of the objective varies
by at most a factor of two. -/
theorem line_rate {g D : ℝ → ℝ} {q : ℝ} (hq : 0 < q)
    (hup : ∀ x h, g (x + h) ≤ g x + h * D x - h ^ 2 / 2 * q)
    (hlo : ∀ x h, g x + h * D x - h ^ 2 * q ≤ g (x + h)) (h0 : q ≤ D 0) (h2 : D 0 ≤ 2 * q) :
    g 0 + 2 / 9 * D 0 ≤ g (binarySearch g 3 0 (3 / 2)) := by
  have hmon : ∀ x h, 0 < h → D (x + h) ≤ D x - h * q := by
    intro x h hh
    have e1 := hup x h
    have e2 := hup (x + h) (-h)
    rw [add_neg_cancel_right] at e2
    have : h * (D (x + h) - (D x - h * q)) ≤ 0 := by nlinarith
    by_contra hc
    push Not at hc
    have := mul_pos hh (sub_pos.2 hc)
    linarith
  have hlip : ∀ x h, 0 < h → D x - 2 * h * q ≤ D (x + h) := by
    intro x h hh
    have e1 := hlo x h
    have e2 := hlo (x + h) (-h)
    rw [add_neg_cancel_right] at e2
    by_contra hc
    push Not at hc
    have := mul_pos hh (sub_pos.2 hc)
    nlinarith
  have hcont : Continuous D := by
    have : LipschitzWith (2 * q).toNNReal D := by
      refine LipschitzWith.of_dist_le_mul fun x y => ?_
      rw [Real.coe_toNNReal _ (by linarith), Real.dist_eq, Real.dist_eq]
      rcases lt_trichotomy x y with h | h | h
      · have a1 := hmon x (y - x) (by linarith)
        have a2 := hlip x (y - x) (by linarith)
        rw [add_sub_cancel] at a1 a2
        have a3 : 0 ≤ (y - x) * q := mul_nonneg (by linarith) hq.le
        rw [abs_of_nonneg (by linarith), abs_of_neg (by linarith)]
        linarith
      · simp [h]
      · have a1 := hmon y (x - y) (by linarith)
        have a2 := hlip y (x - y) (by linarith)
        rw [add_sub_cancel] at a1 a2
        have a3 : 0 ≤ (x - y) * q := mul_nonneg (by linarith) hq.le
        rw [abs_of_nonpos (by linarith), abs_of_pos (by linarith)]
        linarith
    exact this.continuous
  obtain ⟨m, -, hm⟩ : ∃ m ∈ Set.Icc (0 : ℝ) 2, D m = 0 := by
    have := intermediate_value_Icc' (by norm_num : (0 : ℝ) ≤ 2) hcont.continuousOn
    refine this ⟨?_, by linarith⟩
    have := hmon 0 2 (by norm_num)
    rw [zero_add] at this
    linarith
  have hmhalf : 1 / 2 ≤ m := by
    by_contra hc
    push Not at hc
    rcases lt_trichotomy 0 m with h | h | h
    · have := hlip 0 m h
      rw [zero_add, hm] at this
      nlinarith
    · rw [← h] at hm
      linarith
    · have := hmon m (-m) (by linarith)
      rw [add_neg_cancel, hm] at this
      nlinarith
  have hmup : ∀ x, g x ≤ g m - (x - m) ^ 2 / 2 * q := by
    intro x
    have := hup m (x - m)
    rw [hm, add_sub_cancel] at this
    linarith
  have hmlo : ∀ x, g m - (x - m) ^ 2 * q ≤ g x := by
    intro x
    have := hlo m (x - m)
    rw [hm, add_sub_cancel] at this
    linarith
  have hDpos : ∀ x, x ≤ m → 0 ≤ D x := by
    intro x hx
    rcases hx.eq_or_lt with h | h
    · rw [h, hm]
    · have := hmon x (m - x) (by linarith)
      rw [add_sub_cancel, hm] at this
      have : 0 ≤ (m - x) * q := mul_nonneg (by linarith) hq.le
      linarith
  have hDneg : ∀ x, m ≤ x → D x ≤ 0 := by
    intro x hx
    rcases hx.eq_or_lt with h | h
    · rw [← h, hm]
    · have := hmon m (x - m) (by linarith)
      rw [add_sub_cancel, hm] at this
      have : 0 ≤ (x - m) * q := mul_nonneg (by linarith) hq.le
      linarith
  have hinc : ∀ x y, x < y → y ≤ m → g x < g y := by
    intro x y hxy hy
    have h1 := hup y (x - y)
    rw [add_sub_cancel] at h1
    have h2 := mul_nonneg (by linarith : 0 ≤ y - x) (hDpos y hy)
    have h3 : 0 < (x - y) ^ 2 / 2 * q := by
      have : 0 < (x - y) ^ 2 := by nlinarith
      positivity
    nlinarith
  have hdec : ∀ x y, m ≤ x → x < y → g y < g x := by
    intro x y hx hxy
    have h1 := hup x (y - x)
    rw [add_sub_cancel] at h1
    have h2 := mul_nonneg (by linarith : 0 ≤ y - x) (neg_nonneg.2 (hDneg x hx))
    have h3 : 0 < (y - x) ^ 2 / 2 * q := by
      have : 0 < (y - x) ^ 2 := by nlinarith
      positivity
    nlinarith
  have hbr := binaryLoop_bracket (g := g) (lo := 0) (hi := 3 / 2) (m := min m (3 / 2)) (eta := 13 / 200)
    (by
      intro x h hh a1 a2 hc
      by_contra hcon
      push Not at hcon
      have c1 : x + 13 / 200 < m := lt_of_lt_of_le hcon (min_le_left _ _)
      rcases le_or_gt (x + h) m with h3 | h3
      · exact absurd hc (not_lt.2 (hinc _ _ (by linarith) h3).le)
      · have b1 := hmup (x - h)
        have b2 := hmlo (x + h)
        have b3 := ratio_bound (h := h) (e := m - x) (by linarith) (by linarith) (by linarith)
        have b4 : (x + h - m) ^ 2 * q ≤ (x - h - m) ^ 2 / 2 * q := by
          refine mul_le_mul_of_nonneg_right ?_ hq.le
          nlinarith
        linarith)
    (by
      intro x h hh a1 a2 hc
      refine le_min ?_ (by linarith)
      by_contra hcon
      push Not at hcon
      rcases le_or_gt m (x - h) with h3 | h3
      · exact absurd hc (not_le.2 (hdec _ _ h3 (by linarith)))
      · have b1 := hmup (x + h)
        have b2 := hmlo (x - h)
        have b3 := ratio_bound (h := h) (e := x - m) (by linarith) (by linarith) (by linarith)
        have b4 : (x - h - m) ^ 2 * q < (x + h - m) ^ 2 / 2 * q := by
          refine mul_lt_mul_of_pos_right ?_ hq
          nlinarith
        linarith)
    3 0 (3 / 2) le_rfl (by norm_num) le_rfl (by
      have : 0 ≤ min m (3 / 2) := le_min (by linarith) (by norm_num)
      linarith) (by
      have := min_le_right m (3 / 2)
      linarith)
  obtain ⟨i1, i2, i3, i4⟩ := binaryLoop_interval g 3 0 (3 / 2) (by norm_num)
  have hlam : binarySearch g 3 0 (3 / 2) =
      (1 / 2) * ((binaryLoop g 3 0 (3 / 2)).1 + (binaryLoop g 3 0 (3 / 2)).2) := rfl
  norm_num at i4
  have hclose1 : min m (3 / 2) - 127 / 800 ≤ binarySearch g 3 0 (3 / 2) := by
    rw [hlam]
    linarith [hbr.2]
  have hclose2 : binarySearch g 3 0 (3 / 2) ≤ min m (3 / 2) + 127 / 800 := by
    rw [hlam]
    linarith [hbr.1]
  have hle : binarySearch g 3 0 (3 / 2) ≤ 3 / 2 := by
    rw [hlam]
    linarith
  generalize binarySearch g 3 0 (3 / 2) = lam at *
  have hhalf : g 0 + D 0 / 4 ≤ g (1 / 2) := by
    have := hlo 0 (1 / 2)
    rw [zero_add] at this
    linarith
  rcases le_or_gt (3 / 2) m with h | h
  · rw [min_eq_right h] at hclose1
    have := hinc (1 / 2) lam (by linarith) (by linarith)
    linarith
  · rw [min_eq_left h.le] at hclose1 hclose2
    have b1 : g (1 / 2) ≤ g m := (hmup (1 / 2)).trans (by
      have : 0 ≤ (1 / 2 - m) ^ 2 / 2 * q := by positivity
      linarith)
    have b2 := hmlo lam
    have b3 : (lam - m) ^ 2 * q ≤ (127 / 800) ^ 2 * q := by
      refine mul_le_mul_of_nonneg_right ?_ hq.le
      exact sq_le_sq' (by linarith) (by linarith)
    linarith

section pairs
variable {n : Nat}

theorem pairLogLik_upper (sigma : ℝ) (y : List (IPair n)) (F s : Fin n → ℝ) (t : ℝ) :
    pairLogLik sigma y (F + t • s) ≤
      pairLogLik sigma y F + t * (y.map fun p => mratio (pairZ sigma F p) * pairZ sigma s p).sum := by
  unfold pairLogLik
  induction y with
  | nil => simp
  | cons p y ih =>
    simp only [List.map_cons, List.sum_cons]
    have := logPhi_upper (pairZ sigma F p) (t * pairZ sigma s p)
    rw [pairZ_line]
    nlinarith

/-- The curvature of the pair labels is at most the signal-to-noise ratio times that of the prior. -/
theorem pairZ_sum_le {sigma : ℝ} (y : List (IPair n)) {K : Matrix (Fin n) (Fin n) ℝ} (hK : K.PosDef) (x : Fin n → ℝ) :
    (y.map fun p => pairZ sigma x p ^ 2).sum ≤ pairSignal sigma y K * (x ⬝ᵥ (K⁻¹ *ᵥ x)) := by
  have h1 : (y.map fun p => pairZ sigma x p ^ 2).sum ≤ (y.map fun p => (p.dk : ℝ) ^ 2 *
      (K p.u p.u + K p.v p.v - 2 * K p.u p.v) / (2 * sigma ^ 2) * (x ⬝ᵥ (K⁻¹ *ᵥ x))).sum :=
    List.sum_le_sum fun p _ => pairZ_sq_le hK x p
  rwa [← sum_map_mul] at h1

theorem prefW_quad_le {sigma : ℝ} (y : List (IPair n)) {F : Fin n → ℝ}
    (h : ∀ p ∈ y, -30 < zk sigma F p ∧ zk sigma F p < 100) (x : Fin n → ℝ) :
    x ⬝ᵥ (prefW sigma y F *ᵥ x) ≤ (y.map fun p => pairZ sigma x p ^ 2).sum := by
  set w : IPair n → ℝ := fun p => (p.dk : ℝ) ^ 2 * isqrt2sig sigma ^ 2 * mcurv (zk sigma F p) with hw
  have hM : ∀ i j, prefW sigma y F i j = (y.map fun p => w p * (inc p i * inc p j)).sum := by
    intro i j
    rw [prefW_apply]
    refine sum_map_congr fun p hp => ?_
    rw [pdfCdfRatio_of_mem (h p hp).1.le (h p hp).2.le, pdfCdfRatio2_of_mem (h p hp).1.le (h p hp).2.le]
    rfl
  have e : x ⬝ᵥ (prefW sigma y F *ᵥ x) = ∑ i, x i * ∑ j, prefW sigma y F i j * x j := by
    simp only [dotProduct, mulVec]
  rw [e, pairs_quadratic y w _ hM]
  refine List.sum_le_sum fun p _ => ?_
  have e2 : pairZ sigma x p ^ 2 = (p.dk : ℝ) ^ 2 * isqrt2sig sigma ^ 2 * (x p.v - x p.u) ^ 2 := by
    simp only [pairZ, isqrt2sig]
    ring
  rw [e2]
  refine mul_le_mul_of_nonneg_right ?_ (sq_nonneg _)
  exact mul_le_of_le_one_right (by positivity) (mcurv_le_one _)

end pairs

end Lop
