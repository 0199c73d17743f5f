import Verif.Proofs.AgainOther
import Verif.Props.Again
import Verif.Props.Cov

/-! # C114: a comparison of other points may leave the model less certain -/

namespace Lop.Props

open Lop.Spec Matrix

/-- The kernel `RBF_kern(1, 1)` with its default noise. -/
noncomputable abbrev againKern : KExpr ℝ (Pt 1) := .leaf (.rbf 1 1 (1 / 100))

/-- Two pairs of points on a line, `D` apart. -/
noncomputable abbrev againPts (D : ℝ) : Fin 4 → Pt 1 := ![![0], ![1], ![D], ![D + 1]]

private theorem npInv_inverts {n : Nat} : InvertsInvertible (npInv (n := n)) := by
  intro M hM
  rw [npInv, if_pos hM]

private theorem predict_ok {K W : Matrix (Fin 4) (Fin 4) ℝ} (hK : K.PosDef) (hW : W.PosSemidef) (m : Fin 4 → ℝ)
    (D : ℝ) : ∃ r, prefGpPredict (kcov againKern) (againPts D) K W m npInv (![![0], ![1]] : Fin 2 → Pt 1) = .ok r := by
  have hu := (laplace_reduction hK (hK.inv.add_posSemidef hW)).1
  unfold prefGpPredict laplacePredict
  have hi : npInv (1 + W * K) = some (1 + W * K)⁻¹ := npInv_inverts _ hu
  simp only [kcov, KExpr.cov, KLeaf.cov, rbfCov, hK, hi, bind, Except.bind, if_true]
  norm_num

/-- C114 refuted for comparisons of other points: with the default kernel, after `1 ≻ 0` has been learned, the answer
`D ≻ D + 1` about two points far away *raises* the predicted variance of the difference of the values at `0` and `1`,
for every distance from some distance on. -/
theorem C114_other_false : ∃ D₀ : ℝ, ∀ D, D₀ ≤ D → ∃ K m m' r r',
    againKern.cov (againPts D) (againPts D) = .ok K ∧
    IsMode 1 [⟨1, 0, 1⟩] K m ∧ IsMode 1 [⟨1, 0, 1⟩, ⟨-1, 2, 3⟩] K m' ∧
    PairsInRange 1 [⟨1, 0, 1⟩] m ∧ PairsInRange 1 [⟨1, 0, 1⟩, ⟨-1, 2, 3⟩] m' ∧
    prefGpPredict (kcov againKern) (againPts D) K (prefW 1 [⟨1, 0, 1⟩] m) m npInv ![![0], ![1]] = .ok r ∧
    prefGpPredict (kcov againKern) (againPts D) K (prefW 1 [⟨1, 0, 1⟩, ⟨-1, 2, 3⟩] m') m' npInv ![![0], ![1]] =
      .ok r' ∧
    diffVar r.cov 1 0 < diffVar r'.cov 1 0 := by
  set E := Real.exp (-1 / 2) with hE
  have hE1 : E < 1 := by rw [hE, Real.exp_lt_one_iff]; norm_num
  have hE0 : 0 < E := Real.exp_pos _
  set ka := 2 - 2 * E with hka
  set g := 2 - 2 * E + 2 / 100 with hg
  have hka0 : 0 < ka := by rw [hka]; linarith
  have hg0 : 0 < g := by rw [hg]; linarith
  have hg2 : g < 3 := by rw [hg]; linarith
  -- the standardised difference after the first answer does not depend on the distance
  have hc2 : Real.sqrt 2 * Real.sqrt 2 = 2 := Real.mul_self_sqrt (by norm_num)
  have hc : 0 < Real.sqrt 2 := by positivity
  have hsq : Real.sqrt 2 ^ 2 = 2 := Real.sq_sqrt (by norm_num)
  obtain ⟨z0, hz0⟩ : ∃ z0 : ℝ, z0 = g / 2 * mratio z0 := by
    obtain ⟨m, hm, -⟩ := C97_mode_unique 1 [(⟨1, 0, 1⟩ : IPair 2)] (K := (g / 2) • (1 : Matrix (Fin 2) (Fin 2) ℝ))
      (Matrix.PosDef.one.smul (by positivity))
    have hK2 : ((g / 2) • (1 : Matrix (Fin 2) (Fin 2) ℝ)).PosDef := Matrix.PosDef.one.smul (by positivity)
    have hy : ∀ p ∈ [(⟨1, 0, 1⟩ : IPair 2)], AboutPair 0 1 p := by simp [AboutPair]
    have hab : ∀ f : ℝ → ℝ, ([(⟨1, 0, 1⟩ : IPair 2)].map fun p => f (answerSign 1 p)).sum =
        1 * f 1 + 0 * f (-1) := by simp [answerSign]
    have := about_mode one_pos (u := 0) (v := 1) (by decide) hy hab hK2 hm
    refine ⟨_, this.trans ?_⟩
    rw [mul_one, hsq]
    simp
  obtain ⟨A, hA, hall⟩ := twoGain_lt hg0 hka0 hz0
  have huniq : ∀ z, z = g / 2 * mratio z → z = z0 := by
    intro z hz
    by_contra hne
    rcases lt_or_gt_of_ne hne with h | h
    · have := mul_lt_mul_of_pos_left (mratio_strictAnti h) (half_pos hg0)
      linarith
    · have := mul_lt_mul_of_pos_left (mratio_strictAnti h) (half_pos hg0)
      linarith
  refine ⟨max 2 (2 + 4 / A), fun D hD => ?_⟩
  have hD2 : 2 ≤ D := (le_max_left _ _).trans hD
  have hDA : 2 + 4 / A ≤ D := (le_max_right _ _).trans hD
  set al := Real.exp (-(D - 1) ^ 2 / 2) + Real.exp (-(D + 1) ^ 2 / 2) - 2 * Real.exp (-D ^ 2 / 2) with hal
  have hal0 : 0 < al := by
    have h1 : Real.exp (-(D - 1) ^ 2 / 2) = Real.exp (-D ^ 2 / 2) * Real.exp (D - 1 / 2) := by
      rw [← Real.exp_add]
      congr 1
      ring
    have h2 := Real.add_one_le_exp (D - 1 / 2)
    have h3 := Real.exp_pos (-D ^ 2 / 2)
    have h4 := Real.exp_pos (-(D + 1) ^ 2 / 2)
    have h5 : Real.exp (-D ^ 2 / 2) * 2 ≤ Real.exp (-D ^ 2 / 2) * Real.exp (D - 1 / 2) :=
      mul_le_mul_of_nonneg_left (by linarith) h3.le
    rw [hal, h1]
    linarith
  have halA : al < A := by
    have h1 : Real.exp (-(D + 1) ^ 2 / 2) ≤ Real.exp (-(D - 1) ^ 2 / 2) := Real.exp_le_exp.2 (by nlinarith)
    have h2 := Real.exp_pos (-D ^ 2 / 2)
    have h3 : Real.exp (-(D - 1) ^ 2 / 2) ≤ ((D - 1) / 2)⁻¹ := by
      have h4 : (D - 1) / 2 ≤ Real.exp ((D - 1) ^ 2 / 2) := by
        have := Real.add_one_le_exp ((D - 1) ^ 2 / 2)
        nlinarith
      rw [neg_div, Real.exp_neg]
      exact inv_anti₀ (by linarith) h4
    have h5 : ((D - 1) / 2)⁻¹ * 2 < A := by
      have h6 : 0 < D - 1 := by linarith
      rw [inv_div, div_mul_eq_mul_div, div_lt_iff₀ h6]
      have := mul_le_mul_of_nonneg_left hDA hA.le
      rw [mul_add, mul_div_cancel₀ _ hA.ne'] at this
      linarith
    rw [hal]
    linarith
  obtain ⟨hlg, hall⟩ := hall al hal0 halA
  obtain ⟨K, hKY, hK, -⟩ := C31_definite_partial againKern (againPts D) (by norm_num)
    (by simp [AllLeaves, LeafOK]) (by simp [AllLeaves, NotZeroed]) (.rbf (by norm_num))
  have hKe : ∀ i j, K i j = Real.exp (-(againPts D i 0 - againPts D j 0) ^ 2 / 2) + if i = j then 1 / 100 else 0 := by
    intro i j
    have h := hKY
    simp only [againKern, KExpr.cov, KLeaf.cov, rbfCov] at h
    norm_num at h
    rw [← h]
    simp [rbfEval, sqDist, noiseTerm, Fin.ext_iff, sq]
  have hKs : (kcov againKern) _ _ (![![0], ![1]] : Fin 2 → Pt 1) (againPts D) = .ok (Matrix.of fun i j =>
      Real.exp (-((![![0], ![1]] : Fin 2 → Pt 1) i 0 - againPts D j 0) ^ 2 / 2)) := by
    simp only [kcov, KExpr.cov, KLeaf.cov, rbfCov]
    norm_num
    ext i j
    simp [rbfEval, sqDist, noiseTerm, sq]
  obtain ⟨m, hm, -⟩ := C97_mode_unique 1 [(⟨1, 0, 1⟩ : IPair 4)] hK
  obtain ⟨m', hm', -⟩ := C97_mode_unique 1 [(⟨1, 0, 1⟩ : IPair 4), ⟨-1, 2, 3⟩] hK
  have hy1 : ∀ p ∈ [(⟨1, 0, 1⟩ : IPair 4)], AboutPair 0 1 p := by simp [AboutPair]
  have hy2 : ∀ p ∈ [(⟨-1, 2, 3⟩ : IPair 4)], AboutPair 3 2 p := by simp [AboutPair]
  have hab1 : ∀ f : ℝ → ℝ, ([(⟨1, 0, 1⟩ : IPair 4)].map fun p => f (answerSign 1 p)).sum =
      1 * f 1 + 0 * f (-1) := by simp [answerSign]
  have hab2 : ∀ f : ℝ → ℝ, ([(⟨-1, 2, 3⟩ : IPair 4)].map fun p => f (answerSign 2 p)).sum =
      1 * f 1 + 0 * f (-1) := by simp [answerSign]
  set k0 := Real.exp (-D ^ 2 / 2) with hk0
  set km := Real.exp (-(D - 1) ^ 2 / 2) with hkm
  set kp := Real.exp (-(D + 1) ^ 2 / 2) with hkp
  have hent : ∀ i j x, i ≠ j → -(againPts D i 0 - againPts D j 0) ^ 2 / 2 = x → K i j = Real.exp x := by
    intro i j x h hx
    rw [hKe, if_neg h, add_zero, hx]
  have hdiag : ∀ i, K i i = 1 + 1 / 100 := by
    intro i
    rw [hKe]
    simp
  have K01 : K 0 1 = E := hent _ _ _ (by decide) (by simp [againPts]; try ring)
  have K02 : K 0 2 = k0 := hent _ _ _ (by decide) (by simp [againPts]; try ring)
  have K03 : K 0 3 = kp := hent _ _ _ (by decide) (by simp [againPts]; try ring)
  have K10 : K 1 0 = E := hent _ _ _ (by decide) (by simp [againPts]; try ring)
  have K12 : K 1 2 = km := hent _ _ _ (by decide) (by simp [againPts]; try ring)
  have K13 : K 1 3 = k0 := hent _ _ _ (by decide) (by simp [againPts]; try ring)
  have K20 : K 2 0 = k0 := hent _ _ _ (by decide) (by simp [againPts]; try ring)
  have K21 : K 2 1 = km := hent _ _ _ (by decide) (by simp [againPts]; try ring)
  have K23 : K 2 3 = E := hent _ _ _ (by decide) (by simp [againPts]; try ring)
  have K30 : K 3 0 = kp := hent _ _ _ (by decide) (by simp [againPts]; try ring)
  have K31 : K 3 1 = k0 := hent _ _ _ (by decide) (by simp [againPts]; try ring)
  have K32 : K 3 2 = E := hent _ _ _ (by decide) (by simp [againPts]; try ring)
  set Ks : Matrix (Fin 2) (Fin 4) ℝ := Matrix.of fun i j =>
      Real.exp (-((![![0], ![1]] : Fin 2 → Pt 1) i 0 - againPts D j 0) ^ 2 / 2) with hKsd
  have hks : ∀ i j x, -((![![0], ![1]] : Fin 2 → Pt 1) i 0 - againPts D j 0) ^ 2 / 2 = x → Ks i j = Real.exp x := by
    intro i j x hx
    rw [hKsd, Matrix.of_apply, hx]
  have S00 : Ks 0 0 = 1 := (hks _ _ 0 (by simp [againPts])).trans Real.exp_zero
  have S01 : Ks 0 1 = E := hks _ _ _ (by simp [againPts]; try ring)
  have S02 : Ks 0 2 = k0 := hks _ _ _ (by simp [againPts]; try ring)
  have S03 : Ks 0 3 = kp := hks _ _ _ (by simp [againPts]; try ring)
  have S10 : Ks 1 0 = E := hks _ _ _ (by simp [againPts]; try ring)
  have S11 : Ks 1 1 = 1 := (hks _ _ 0 (by simp [againPts])).trans Real.exp_zero
  have S12 : Ks 1 2 = km := hks _ _ _ (by simp [againPts]; try ring)
  have S13 : Ks 1 3 = k0 := hks _ _ _ (by simp [againPts]; try ring)
  have hV : K 1 1 - K 1 0 - (K 0 1 - K 0 0) = g := by
    rw [hdiag, hdiag, K10, K01, hg]
    ring
  -- the first fit
  have f1 : (m 1 - m 0) / (Real.sqrt 2 * 1) = z0 := by
    refine huniq _ ((about_mode one_pos (u := 0) (v := 1) (by decide) hy1 hab1 hK hm).trans ?_)
    rw [hV, mul_one, hsq]
    ring
  -- the second fit
  have hfix := (C110_representer one_pos _ hK m').1.1 hm'
  set z1 := (m' 1 - m' 0) / (Real.sqrt 2 * 1) with hz1
  set z2 := (m' 2 - m' 3) / (Real.sqrt 2 * 1) with hz2
  have p1 : pairPull 1 m' ⟨1, 0, 1⟩ = mratio z1 / Real.sqrt 2 := by
    simp [pairPull, pairZ, mratio, hz1]
  have p2 : pairPull 1 m' ⟨-1, 2, 3⟩ = mratio z2 / Real.sqrt 2 := by
    have : pairZ 1 m' ⟨-1, 2, 3⟩ = z2 := by simp [pairZ, hz2]
    simp [pairPull, mratio, this]
  have hmi : ∀ i, m' i = (mratio z1 * (K i 1 - K i 0) + mratio z2 * (K i 2 - K i 3)) / Real.sqrt 2 := by
    intro i
    rw [hfix i]
    simp only [List.map_cons, List.map_nil, List.sum_cons, List.sum_nil, p1, p2]
    push_cast
    ring
  have q1 : z1 = (g * mratio z1 + al * mratio z2) / 2 := by
    have : z1 = (mratio z1 * (K 1 1 - K 1 0 - (K 0 1 - K 0 0)) +
        mratio z2 * (K 1 2 - K 1 3 - (K 0 2 - K 0 3))) / (Real.sqrt 2 * Real.sqrt 2) := by
      have e : m' 1 - m' 0 = (mratio z1 * (K 1 1 - K 1 0 - (K 0 1 - K 0 0)) +
          mratio z2 * (K 1 2 - K 1 3 - (K 0 2 - K 0 3))) / Real.sqrt 2 := by
        rw [hmi 1, hmi 0]
        ring
      calc z1 = (m' 1 - m' 0) / Real.sqrt 2 := by rw [hz1, mul_one]
        _ = _ := by rw [e, div_div]
    rw [hc2, hV, K12, K13, K02, K03] at this
    rw [hal]
    linarith
  have q2 : z2 = (al * mratio z1 + g * mratio z2) / 2 := by
    have : z2 = (mratio z1 * (K 2 1 - K 2 0 - (K 3 1 - K 3 0)) +
        mratio z2 * (K 2 2 - K 2 3 - (K 3 2 - K 3 3))) / (Real.sqrt 2 * Real.sqrt 2) := by
      have e : m' 2 - m' 3 = (mratio z1 * (K 2 1 - K 2 0 - (K 3 1 - K 3 0)) +
          mratio z2 * (K 2 2 - K 2 3 - (K 3 2 - K 3 3))) / Real.sqrt 2 := by
        rw [hmi 2, hmi 3]
        ring
      calc z2 = (m' 2 - m' 3) / Real.sqrt 2 := by rw [hz2, mul_one]
        _ = _ := by rw [e, div_div]
    rw [hc2, hdiag, hdiag, K21, K20, K31, K30, K23, K32] at this
    rw [hal, hg]
    linarith
  have hmain := hall z1 z2 q1 q2
  have hz0p : 0 < z0 := by rw [hz0]; have := mratio_pos z0; positivity
  have hz1p : 0 < z1 := by rw [q1]; have := mratio_pos z1; have := mratio_pos z2; positivity
  have hz2p : 0 < z2 := by rw [q2]; have := mratio_pos z1; have := mratio_pos z2; positivity
  have hz0u : z0 < 100 := by
    have := mul_le_mul_of_nonneg_left (mratio_lt_one hz0p.le).le (half_pos hg0).le
    linarith
  have hz1u : z1 < 100 := by
    have := mul_le_mul_of_nonneg_left (mratio_lt_one hz1p.le).le hg0.le
    have := mul_le_mul_of_nonneg_left (mratio_lt_one hz2p.le).le hal0.le
    linarith
  have hz2u : z2 < 100 := by
    have := mul_le_mul_of_nonneg_left (mratio_lt_one hz1p.le).le hal0.le
    have := mul_le_mul_of_nonneg_left (mratio_lt_one hz2p.le).le hg0.le
    linarith
  have hr : PairsInRange 1 [(⟨1, 0, 1⟩ : IPair 4)] m := by
    intro p hp
    simp only [List.mem_singleton] at hp
    have : pairZ 1 m p = z0 := by rw [hp, ← f1]; simp [pairZ]
    rw [this]
    exact ⟨by linarith, hz0u⟩
  have hr1 : PairsInRange 1 [(⟨1, 0, 1⟩ : IPair 4)] m' := by
    intro p hp
    simp only [List.mem_singleton] at hp
    have : pairZ 1 m' p = z1 := by rw [hp, hz1]; simp [pairZ]
    rw [this]
    exact ⟨by linarith, hz1u⟩
  have hr2 : PairsInRange 1 [(⟨-1, 2, 3⟩ : IPair 4)] m' := by
    intro p hp
    simp only [List.mem_singleton] at hp
    have : pairZ 1 m' p = z2 := by rw [hp, hz2]; simp [pairZ]
    rw [this]
    exact ⟨by linarith, hz2u⟩
  have hr' : PairsInRange 1 [(⟨1, 0, 1⟩ : IPair 4), ⟨-1, 2, 3⟩] m' := by
    intro p hp
    rcases List.mem_cons.1 hp with h | h
    · exact hr1 p (by simp [h])
    · exact hr2 p h
  have hW1 := (C37_W_psd 1 one_ne_zero _ m hr).1
  have hW2 := (C37_W_psd 1 one_ne_zero _ m' hr').1
  obtain ⟨r, hpr⟩ := predict_ok hK hW1 m D
  obtain ⟨r', hpr'⟩ := predict_ok hK hW2 m' D
  refine ⟨K, m, m', r, r', hKY, hm, hm', hr, hr', hpr, hpr', ?_⟩
  obtain ⟨Ks1, Kss, tmp, h1, h2, -, hi, hcov, -, -⟩ := prefGpPredict_inv hpr'
  rw [hKs] at h1
  obtain rfl := Except.ok.inj h1
  have hrc : ∀ i j, r.cov i j = Kss i j - mcurv z0 / 2 / (1 + mcurv z0 / 2 * g) *
      ((Ks i 1 - Ks i 0) * (Ks j 1 - Ks j 0)) := by
    intro i j
    rw [← hV]
    refine about_cov one_pos (u := 0) (v := 1) (by decide) hy1 zero_le_one le_rfl hab1 hr npInv_inverts hpr hKs h2 i j ?_
    rw [f1, mul_one, hsq, answersInfo]
    ring
  have hWs : prefW 1 [(⟨1, 0, 1⟩ : IPair 4), ⟨-1, 2, 3⟩] m' =
      (mcurv z1 / 2) • vecMulVec (diffVec 0 1) (diffVec 0 1) + (mcurv z2 / 2) • vecMulVec (diffVec 3 2) (diffVec 3 2) := by
    have a1 := about_W (sigma := 1) (u := 0) (v := 1) (by decide) hy1 hab1 hr1
    have a2 := about_W (sigma := 1) (u := 3) (v := 2) (by decide) hy2 hab2 hr2
    rw [← hz1, mul_one, hsq] at a1
    rw [← hz2, mul_one, hsq] at a2
    have a3 : prefW 1 [(⟨1, 0, 1⟩ : IPair 4), ⟨-1, 2, 3⟩] m' = prefW 1 [⟨1, 0, 1⟩] m' + prefW 1 [⟨-1, 2, 3⟩] m' := by
      ext i j
      rw [Matrix.add_apply]
      simp only [prefW_apply, List.map_cons, List.map_nil, List.sum_cons, List.sum_nil, add_zero]
    rw [a3, a1, a2]
    simp only [answersInfo, one_mul, zero_mul, add_zero]
  have hu := (laplace_reduction hK (hK.inv.add_posSemidef hW2)).1
  rw [npInv_inverts _ hu] at hi
  obtain rfl := Option.some.inj hi
  have hred := two_reduction hu hWs (g := g) (al := al)
    (by rw [diffVec_quad, hV]) (by rw [diffVec_quad, hdiag, hdiag, K23, K32, hg]; ring)
    (by rw [diffVec_cross, K12, K13, K02, K03, hal]; ring) (by rw [diffVec_cross, K21, K20, K31, K30, hal]; ring)
    (twoDet_pos hg0 hal0 hlg (half_pos (mcurv_pos z1)) (half_pos (mcurv_pos z2))).ne'
  set M := (1 + prefW 1 [(⟨1, 0, 1⟩ : IPair 4), ⟨-1, 2, 3⟩] m' * K)⁻¹ * prefW 1 [(⟨1, 0, 1⟩ : IPair 4), ⟨-1, 2, 3⟩] m' with hM
  have hcov' : r'.cov = Kss - Ks * M * Ksᵀ := by
    rw [hcov, hM]
    simp only [Matrix.mul_assoc]
  have hvv : ∀ (x w : Fin 4 → ℝ) i j, (Ks * vecMulVec x w * Ksᵀ) i j = (Ks i ⬝ᵥ x) * (Ks j ⬝ᵥ w) := by
    intro x w i j
    rw [mul_vecMulVec, vecMulVec_mul, vecMulVec_apply, vecMul_transpose]
    rfl
  have hdot : ∀ (i : Fin 2) u v, Ks i ⬝ᵥ diffVec u v = Ks i v - Ks i u := by
    intro i u v
    simp [diffVec, dotProduct_sub]
  have hrc' : diffVar r'.cov 1 0 = diffVar Kss 1 0 - twoGain g ka al (mcurv z1 / 2) (mcurv z2 / 2) := by
    rw [hcov', hred]
    simp only [diffVar, Matrix.sub_apply, Matrix.mul_smul, Matrix.smul_mul, Matrix.mul_add, Matrix.add_mul, Matrix.mul_sub,
      Matrix.sub_mul, Matrix.smul_apply, Matrix.add_apply, hvv, hdot, smul_eq_mul, S00, S01, S02, S03, S10, S11, S12, S13]
    rw [twoGain, hka, hal, div_eq_inv_mul]
    ring
  have hrc0 : diffVar r.cov 1 0 = diffVar Kss 1 0 - ka ^ 2 * (mcurv z0 / 2) / (1 + g * (mcurv z0 / 2)) := by
    simp only [diffVar, hrc, S00, S01, S10, S11]
    rw [hka]
    ring
  rw [hrc', hrc0]
  linarith

/-- A case of `C114_again`, `C114_variances` and `C114_vanishes`: `1 ≻ 0`, then the contrary answer to the same
question asked the other way round, with predictions at three points. -/
example : ∃ K m m' r r', againKern.cov ![![0], ![1]] ![![0], ![1]] = .ok K ∧
    (∀ q ∈ [(⟨1, 0, 1⟩ : IPair 2)], AboutPair 0 1 q) ∧ AboutPair (0 : Fin 2) 1 ⟨1, 1, 0⟩ ∧
    IsMode 1 [(⟨1, 0, 1⟩ : IPair 2)] K m ∧ IsMode 1 [(⟨1, 1, 0⟩ : IPair 2), ⟨1, 0, 1⟩] K m' ∧
    PairsInRange 1 [(⟨1, 0, 1⟩ : IPair 2)] m ∧ PairsInRange 1 [(⟨1, 1, 0⟩ : IPair 2), ⟨1, 0, 1⟩] m' ∧
    prefGpPredict (kcov againKern) ![![0], ![1]] K (prefW 1 [⟨1, 0, 1⟩] m) m npInv ![![0], ![1], ![3]] = .ok r ∧
    prefGpPredict (kcov againKern) ![![0], ![1]] K (prefW 1 [⟨1, 1, 0⟩, ⟨1, 0, 1⟩] m') m' npInv
      ![![0], ![1], ![3]] = .ok r' ∧
    r'.cov 2 2 < r.cov 2 2 := by
  obtain ⟨K, hKY, hK, -⟩ := C31_definite_partial againKern ![![0], ![1]] (by norm_num)
    (by simp [AllLeaves, LeafOK]) (by simp [AllLeaves, NotZeroed]) (.rbf (by norm_num))
  obtain ⟨m, hm, -⟩ := C97_mode_unique 1 [(⟨1, 0, 1⟩ : IPair 2)] hK
  obtain ⟨m', hm', -⟩ := C97_mode_unique 1 [(⟨1, 1, 0⟩ : IPair 2), ⟨1, 0, 1⟩] hK
  have hy : ∀ q ∈ [(⟨1, 0, 1⟩ : IPair 2)], AboutPair 0 1 q := by simp [AboutPair]
  have hp : AboutPair (0 : Fin 2) 1 ⟨1, 1, 0⟩ := by simp [AboutPair]
  have hy' : ∀ q ∈ [(⟨1, 1, 0⟩ : IPair 2), ⟨1, 0, 1⟩], AboutPair 0 1 q := by simp [AboutPair]
  have hsq : Real.sqrt 2 ^ 2 = 2 := Real.sq_sqrt (by norm_num)
  have hE : Real.exp (-1 / 2) < 1 := by rw [Real.exp_lt_one_iff]; norm_num
  have hE0 := Real.exp_pos (-1 / 2)
  have hV : K 1 1 - K 1 0 - (K 0 1 - K 0 0) = 2 + 2 / 100 - 2 * Real.exp (-1 / 2) := by
    have h := hKY
    simp only [againKern, KExpr.cov, KLeaf.cov, rbfCov] at h
    norm_num at h
    rw [← h]
    simp [rbfEval, sqDist, noiseTerm]
    ring
  have hz := about_mode one_pos (u := 0) (v := 1) (by decide) hy (a := 1) (b := 0) (by simp [answerSign]) hK hm
  have hz' := about_mode one_pos (u := 0) (v := 1) (by decide) hy' (a := 1) (b := 1)
    (by intro f; simp [answerSign]; ring) hK hm'
  rw [hV] at hz hz'
  rw [mul_one] at hz hz'
  rw [hsq] at hz hz'
  set z := (m 1 - m 0) / Real.sqrt 2 with hzd
  set z' := (m' 1 - m' 0) / Real.sqrt 2 with hzd'
  have hz0 : 0 < z := by
    rw [hz, one_mul, zero_mul, sub_zero]
    have := mratio_pos z
    exact mul_pos (by linarith) this
  have hz1 : z < 100 := by
    have h1 := mratio_lt_one hz0.le
    have h2 := mratio_pos z
    rw [hz, one_mul, zero_mul, sub_zero]
    nlinarith
  have hz'0 : z' = 0 := by
    rcases lt_trichotomy z' 0 with h | h | h
    · have := mratio_strictAnti (show z' < -z' by linarith)
      have : 0 < (2 + 2 / 100 - 2 * Real.exp (-1 / 2)) / 2 * (1 * mratio z' - 1 * mratio (-z')) :=
        mul_pos (by linarith) (by linarith)
      linarith
    · exact h
    · have := mratio_strictAnti (show -z' < z' by linarith)
      have : 0 < (2 + 2 / 100 - 2 * Real.exp (-1 / 2)) / 2 * -(1 * mratio z' - 1 * mratio (-z')) :=
        mul_pos (by linarith) (by linarith)
      linarith
  have hr : PairsInRange 1 [(⟨1, 0, 1⟩ : IPair 2)] m := by
    intro p hp
    simp only [List.mem_singleton] at hp
    have : pairZ 1 m p = z := by rw [hp, hzd]; simp [pairZ]
    rw [this]
    exact ⟨by linarith, hz1⟩
  have hr' : PairsInRange 1 [(⟨1, 1, 0⟩ : IPair 2), ⟨1, 0, 1⟩] m' := by
    intro p hp
    have : pairZ 1 m' p = 0 := by
      rw [pairZ_about (u := 0) (v := 1) (by decide) (hy' p hp), mul_one, ← hzd', hz'0, mul_zero]
    rw [this]
    norm_num
  have hok : ∀ (W : Matrix (Fin 2) (Fin 2) ℝ) (m : Fin 2 → ℝ), W.PosSemidef → ∃ r, prefGpPredict (kcov againKern)
      ![![0], ![1]] K W m npInv (![![0], ![1], ![3]] : Fin 3 → Pt 1) = .ok r := by
    intro W m hW
    have hu := (laplace_reduction hK (hK.inv.add_posSemidef hW)).1
    unfold prefGpPredict laplacePredict
    have hi : npInv (1 + W * K) = some (1 + W * K)⁻¹ := npInv_inverts _ hu
    simp only [kcov, KExpr.cov, KLeaf.cov, rbfCov, hK, hi, bind, Except.bind, if_true]
    norm_num
  obtain ⟨r, hr1⟩ := hok _ m (C37_W_psd 1 one_ne_zero _ m hr).1
  obtain ⟨r', hr2⟩ := hok _ m' (C37_W_psd 1 one_ne_zero _ m' hr').1
  refine ⟨K, m, m', r, r', hKY, hy, hp, hm, hm', hr, hr', hr1, hr2, ?_⟩
  have hKs : (kcov againKern) _ _ (![![0], ![1], ![3]] : Fin 3 → Pt 1) (![![0], ![1]] : Fin 2 → Pt 1) =
      .ok (Matrix.of fun i j =>
        Real.exp (-((![![0], ![1], ![3]] : Fin 3 → Pt 1) i 0 - (![![0], ![1]] : Fin 2 → Pt 1) j 0) ^ 2 / 2)) := by
    simp only [kcov, KExpr.cov, KLeaf.cov, rbfCov]
    norm_num
    ext i j
    simp [rbfEval, sqDist, noiseTerm, sq]
  refine ((C114_variances one_pos (by decide) hy hp (.refl _) hm hm' hr hr' npInv_inverts hr1 hr2 hKs).2.1 2).2 ?_
  simp

end Lop.Props
