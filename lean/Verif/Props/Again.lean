import Verif.Proofs.AgainCov

/-! # C114: asking the same question again

Two points `u` and `v` have been compared with each other (either way round, any answers), nothing else has. The
modes are those of the two fits and `W` is what `find_mode` stores for them (nothing clipped). -/

namespace Lop.Props

open Lop.Spec Matrix

variable {n t d : Nat}

/-- C114: one more answer, whatever it is, lowers the predicted covariances by a positive multiple of the product of
the differences of the prior covariances with the two points. -/
theorem C114_again {sigma : ℝ} (hs : 0 < sigma) {u v : Fin t} (huv : u ≠ v) {y y' : List (IPair t)} {p : IPair t}
    (hy : ∀ q ∈ y, AboutPair u v q) (hp : AboutPair u v p) (hy' : y'.Perm (p :: y)) {cov : CovFn d}
    {Y : Fin t → Pt d} {K : Matrix (Fin t) (Fin t) ℝ} {m m' : Fin t → ℝ} (hm : IsMode sigma y K m)
    (hm' : IsMode sigma y' K m') (hr : PairsInRange sigma y m) (hr' : PairsInRange sigma y' m')
    {invert : Matrix (Fin t) (Fin t) ℝ → Option (Matrix (Fin t) (Fin t) ℝ)} (hinv : InvertsInvertible invert)
    {X : Fin n → Pt d} {r r' : GPPred n}
    (h : prefGpPredict cov Y K (prefW sigma y m) m invert X = .ok r)
    (h' : prefGpPredict cov Y K (prefW sigma y' m') m' invert X = .ok r')
    {Ks : Matrix (Fin n) (Fin t) ℝ} (hKs : cov _ _ X Y = .ok Ks) :
    ∃ δ, 0 < δ ∧ ∀ i j, r'.cov i j = r.cov i j - δ * ((Ks i v - Ks i u) * (Ks j v - Ks j u)) := by
  obtain ⟨-, Kss, -, -, h2, hK, -⟩ := prefGpPredict_inv h
  obtain ⟨a, b, -, hab⟩ := about_counts y hy
  have hy'' : ∀ q ∈ y', AboutPair u v q := by
    intro q hq
    rcases List.mem_cons.1 (hy'.mem_iff.1 hq) with rfl | hq
    · exact hp
    · exact hy q hq
  have hsum : ∀ f : ℝ → ℝ, (y'.map fun q => f (answerSign v q)).sum = f (answerSign v p) + (a * f 1 + b * f (-1)) := by
    intro f
    rw [(hy'.map _).sum_eq, List.map_cons, List.sum_cons, hab]
  have hV := var_diff_pos hK huv
  have hc : 0 < Real.sqrt 2 * sigma := by positivity
  have hc2 : 0 < (K v v - K v u - (K u v - K u u)) / (Real.sqrt 2 * sigma) ^ 2 := by positivity
  have ha : (0 : ℝ) ≤ a := Nat.cast_nonneg a
  have hb : (0 : ℝ) ≤ b := Nat.cast_nonneg b
  have e1 := about_mode hs huv hy hab hK hm
  set z := (m v - m u) / (Real.sqrt 2 * sigma) with hz
  set z' := (m' v - m' u) / (Real.sqrt 2 * sigma) with hz'
  have hfin : ∀ a' b' : ℝ, 0 ≤ a' → 0 ≤ b' →
      (∀ f : ℝ → ℝ, (y'.map fun q => f (answerSign v q)).sum = a' * f 1 + b' * f (-1)) →
      answersInfo a b z < answersInfo a' b' z' →
      ∃ δ, 0 < δ ∧ ∀ i j, r'.cov i j = r.cov i j - δ * ((Ks i v - Ks i u) * (Ks j v - Ks j u)) := by
    intro a' b' ha' hb' hab' hlt
    have hP0 : 0 ≤ answersInfo a b z / (Real.sqrt 2 * sigma) ^ 2 := by
      rw [answersInfo]
      have := mul_nonneg ha (mcurv_pos z).le
      have := mul_nonneg hb (mcurv_pos (-z)).le
      positivity
    have hPlt := div_lt_div_of_pos_right hlt (show 0 < (Real.sqrt 2 * sigma) ^ 2 by positivity)
    refine ⟨_, sub_pos.2 (shrink_lt hP0 hV hPlt), fun i j => ?_⟩
    rw [about_cov hs huv hy ha hb hab hr hinv h hKs h2 i j rfl,
      about_cov hs huv hy'' ha' hb' hab' hr' hinv h' hKs h2 i j rfl]
    ring
  rcases answerSign_cases hp with h1 | h1
  · have hab' : ∀ f : ℝ → ℝ, (y'.map fun q => f (answerSign v q)).sum = ((a : ℝ) + 1) * f 1 + b * f (-1) := by
      intro f
      rw [hsum, h1]
      ring
    refine hfin _ _ (by positivity) hb hab' ?_
    have e2 := about_mode hs huv hy'' hab' hK hm'
    exact answersInfo_more hc2 ha hb e1 e2
  · have hab' : ∀ f : ℝ → ℝ, (y'.map fun q => f (answerSign v q)).sum = (a : ℝ) * f 1 + ((b : ℝ) + 1) * f (-1) := by
      intro f
      rw [hsum, h1]
      ring
    refine hfin _ _ ha (by positivity) hab' ?_
    have e2 := about_mode hs huv hy'' hab' hK hm'
    rw [answersInfo_swap, answersInfo_swap a]
    refine answersInfo_more hc2 hb ha ?_ ?_
    · rw [neg_neg]
      linarith
    · rw [neg_neg]
      linarith

/-- C114: so no predicted variance grows, neither of a value nor of a difference of values; those of values which the
prior does not relate equally to the two points, and of differences likewise, become smaller. -/
theorem C114_variances {sigma : ℝ} (hs : 0 < sigma) {u v : Fin t} (huv : u ≠ v) {y y' : List (IPair t)} {p : IPair t}
    (hy : ∀ q ∈ y, AboutPair u v q) (hp : AboutPair u v p) (hy' : y'.Perm (p :: y)) {cov : CovFn d}
    {Y : Fin t → Pt d} {K : Matrix (Fin t) (Fin t) ℝ} {m m' : Fin t → ℝ} (hm : IsMode sigma y K m)
    (hm' : IsMode sigma y' K m') (hr : PairsInRange sigma y m) (hr' : PairsInRange sigma y' m')
    {invert : Matrix (Fin t) (Fin t) ℝ → Option (Matrix (Fin t) (Fin t) ℝ)} (hinv : InvertsInvertible invert)
    {X : Fin n → Pt d} {r r' : GPPred n}
    (h : prefGpPredict cov Y K (prefW sigma y m) m invert X = .ok r)
    (h' : prefGpPredict cov Y K (prefW sigma y' m') m' invert X = .ok r')
    {Ks : Matrix (Fin n) (Fin t) ℝ} (hKs : cov _ _ X Y = .ok Ks) :
    (∀ i, r'.sigma i ≤ r.sigma i) ∧
    (∀ i, r'.cov i i < r.cov i i ↔ Ks i v ≠ Ks i u) ∧
    (∀ i, Ks i v ≠ Ks i u → 0 < r.cov i i → r'.sigma i < r.sigma i) ∧
    (∀ i j, diffVar r'.cov i j ≤ diffVar r.cov i j) ∧
    ∀ i j, diffVar r'.cov i j < diffVar r.cov i j ↔ Ks i v - Ks i u ≠ Ks j v - Ks j u := by
  obtain ⟨δ, hδ, hall⟩ := C114_again hs huv hy hp hy' hm hm' hr hr' hinv h h' hKs
  obtain ⟨-, -, -, -, -, -, -, -, -, hsig⟩ := prefGpPredict_inv h
  obtain ⟨-, -, -, -, -, -, -, -, -, hsig'⟩ := prefGpPredict_inv h'
  have hle : ∀ i, r'.cov i i ≤ r.cov i i := fun i => by
    rw [hall]
    have := mul_nonneg hδ.le (mul_self_nonneg (Ks i v - Ks i u))
    linarith
  have hlt : ∀ i, r'.cov i i < r.cov i i ↔ Ks i v ≠ Ks i u := fun i => by
    rw [hall, sub_lt_self_iff, mul_pos_iff_of_pos_left hδ, mul_self_pos, sub_ne_zero]
  have hd : ∀ i j, diffVar r'.cov i j = diffVar r.cov i j -
      δ * ((Ks i v - Ks i u - (Ks j v - Ks j u)) * (Ks i v - Ks i u - (Ks j v - Ks j u))) := by
    intro i j
    simp only [diffVar, hall]
    ring
  refine ⟨fun i => ?_, hlt, fun i hi h0 => ?_, fun i j => ?_, fun i j => ?_⟩
  · rw [hsig, hsig']
    exact max_le_max le_rfl (hle i)
  · rw [hsig, hsig']
    exact lt_max_of_lt_right (max_lt h0 ((hlt i).2 hi))
  · rw [hd]
    have := mul_nonneg hδ.le (mul_self_nonneg (Ks i v - Ks i u - (Ks j v - Ks j u)))
    linarith
  · rw [hd, sub_lt_self_iff, mul_pos_iff_of_pos_left hδ, mul_self_pos, sub_ne_zero]

/-- C114: with enough answers the predicted variance of the difference becomes as small as one likes, whatever the
answers. -/
theorem C114_vanishes {sigma : ℝ} (hs : 0 < sigma) {u v : Fin t} (huv : u ≠ v) (k : KExpr ℝ (Pt d))
    (hq : AllLeaves NoNoise k) (Y : Fin t → Pt d) {K : Matrix (Fin t) (Fin t) ℝ} (hKY : k.cov Y Y = .ok K)
    {ε : ℝ} (hε : 0 < ε) :
    ∃ N : Nat, ∀ y : List (IPair t), (∀ q ∈ y, AboutPair u v q) → N ≤ y.length →
      ∀ m, IsMode sigma y K m → PairsInRange sigma y m →
      ∀ invert : Matrix (Fin t) (Fin t) ℝ → Option (Matrix (Fin t) (Fin t) ℝ), InvertsInvertible invert →
      ∀ (n : Nat) (X : Fin n → Pt d) (r : GPPred n),
        prefGpPredict (kcov k) Y K (prefW sigma y m) m invert X = .ok r →
        ∀ i j, X i = Y v → X j = Y u → diffVar r.cov i j < ε := by
  by_cases hK : K.PosDef
  swap
  · refine ⟨0, fun y _ _ m _ _ invert _ n X r h => ?_⟩
    obtain ⟨-, -, -, -, -, hK', -⟩ := prefGpPredict_inv h
    exact absurd hK' hK
  obtain ⟨g, hg⟩ := cov_pointwise k hq
  have hV := var_diff_pos hK huv
  have hc : 0 < Real.sqrt 2 * sigma := by positivity
  set V := K v v - K v u - (K u v - K u u) with hVd
  set c := Real.sqrt 2 * sigma with hcd
  have hc2 : 0 < V / c ^ 2 := by positivity
  -- information needed
  set B := c ^ 2 / ε with hB
  have hB0 : 0 < B := by positivity
  obtain ⟨T, hT0, hT⟩ : ∃ T : ℝ, 0 ≤ T ∧ B < T ^ 2 / (V / c ^ 2) := by
    refine ⟨Real.sqrt (V / c ^ 2 * (B + 1)), Real.sqrt_nonneg _, ?_⟩
    rw [Real.sq_sqrt (by positivity), mul_div_cancel_left₀ _ hc2.ne']
    linarith
  obtain ⟨N, hN⟩ := exists_nat_gt (B / mcurv T)
  refine ⟨N, fun y hy hlen m hm hr invert hinv n X r h i j hi hj => ?_⟩
  obtain ⟨a, b, hab0, hab⟩ := about_counts y hy
  have ha : (0 : ℝ) ≤ a := Nat.cast_nonneg a
  have hb : (0 : ℝ) ≤ b := Nat.cast_nonneg b
  have e1 := about_mode hs huv hy hab hK hm
  have hI := answersInfo_large hc2 hT0 ha hb e1
  obtain ⟨Ks, Kss, -, h1, h2, -⟩ := prefGpPredict_inv h
  have hbig : B < answersInfo a b ((m v - m u) / c) := by
    refine lt_of_lt_of_le (lt_min ?_ hT) hI
    rw [div_lt_iff₀ (mcurv_pos T)] at hN
    have : (N : ℝ) ≤ a + b := by
      rw [← Nat.cast_add, hab0]
      exact_mod_cast hlen
    exact hN.trans_le (mul_le_mul_of_nonneg_right this (mcurv_pos T).le)
  set P := answersInfo a b ((m v - m u) / c) / c ^ 2 with hP
  have hP1 : 1 / ε < P := by
    rw [hP, lt_div_iff₀ (by positivity)]
    calc 1 / ε * c ^ 2 = B := by rw [hB]; ring
      _ < _ := hbig
  have hP0 : 0 < P := lt_trans (by positivity) hP1
  have hcovs : ∀ i j, r.cov i j = Kss i j - P / (1 + P * V) * ((Ks i v - Ks i u) * (Ks j v - Ks j u)) :=
    fun i j => about_cov hs huv hy ha hb hab hr hinv h h1 h2 i j rfl
  have hks : ∀ i j, Ks i j = g (X i) (Y j) := fun i j => by rw [hg _ _ _ h1]
  have hkss : ∀ i j, Kss i j = g (X i) (X j) := fun i j => by rw [hg _ _ _ h2]
  have hk : ∀ i j, K i j = g (Y i) (Y j) := fun i j => by rw [hg _ _ _ hKY]
  have hval : diffVar r.cov i j = V / (1 + P * V) := by
    have hA : Ks i v - Ks i u - (Ks j v - Ks j u) = V := by
      rw [hVd]
      simp only [hks, hk, hi, hj]
    have hBv : diffVar Kss i j = V := by
      rw [hVd, diffVar]
      simp only [hkss, hk, hi, hj]
      ring
    have : diffVar r.cov i j = diffVar Kss i j - P / (1 + P * V) *
        ((Ks i v - Ks i u - (Ks j v - Ks j u)) * (Ks i v - Ks i u - (Ks j v - Ks j u))) := by
      simp only [diffVar, hcovs]
      ring
    rw [this, hA, hBv]
    field_simp
    ring
  rw [hval, div_lt_iff₀ (by positivity)]
  have : 1 < ε * P := by
    rw [div_lt_iff₀ hε] at hP1
    linarith
  nlinarith [mul_lt_mul_of_pos_right this hV]

end Lop.Props
