import Verif.Proofs.Influence
import Verif.Props.ModeLearned

/-! # C123: how far answers can move a model -/

namespace Lop.Props

open Lop.Spec Matrix

variable {n t d : Nat}

/-- C123: further answers move the value of no point by more than its prior standard deviation times the influence of these
answers. The influence can be computed from the values fitted without these answers, and from those fitted with them; the
smaller one counts. -/
theorem C123_values {sigma : ℝ} (hs : 0 < sigma) {y l y' : List (IPair n)} (hy' : y'.Perm (y ++ l))
    {K : Matrix (Fin n) (Fin n) ℝ} (hK : K.PosDef) {m m' : Fin n → ℝ} (hm : IsMode sigma y K m) (hm' : IsMode sigma y' K m')
    (i : Fin n) : |m' i - m i| ≤ Real.sqrt (K i i) * min (influence sigma m K l) (influence sigma m' K l) := by
  have h := entry_sq_le hK (m' - m) i
  have h1 := Real.abs_le_sqrt h
  rw [Real.sqrt_mul hK.diag_pos.le] at h1
  exact h1.trans (mul_le_mul_of_nonneg_left (mode_change hs hy' hK hm hm') (Real.sqrt_nonneg _))

/-- C123: likewise the difference of any two points. -/
theorem C123_differences {sigma : ℝ} (hs : 0 < sigma) {y l y' : List (IPair n)} (hy' : y'.Perm (y ++ l))
    {K : Matrix (Fin n) (Fin n) ℝ} (hK : K.PosDef) {m m' : Fin n → ℝ} (hm : IsMode sigma y K m) (hm' : IsMode sigma y' K m')
    (i j : Fin n) : |(m' i - m' j) - (m i - m j)| ≤ Real.sqrt (diffVar K i j) * min (influence sigma m K l) (influence sigma m' K l) := by
  have h := abs_diff_le hK (m' - m) j i
  simp only [Pi.sub_apply] at h
  have e : m' i - m' j - (m i - m j) = m' i - m i - (m' j - m j) := by ring
  rw [e]
  exact h.trans (mul_le_mul_of_nonneg_left (mode_change hs hy' hK hm hm') (Real.sqrt_nonneg _))

/-- C123: a lead larger than that is not lost. -/
theorem C123_stable {sigma : ℝ} (hs : 0 < sigma) {y l y' : List (IPair n)} (hy' : y'.Perm (y ++ l))
    {K : Matrix (Fin n) (Fin n) ℝ} (hK : K.PosDef) {m m' : Fin n → ℝ} (hm : IsMode sigma y K m) (hm' : IsMode sigma y' K m')
    {i j : Fin n} (h : Real.sqrt (diffVar K i j) * min (influence sigma m K l) (influence sigma m' K l) < m i - m j) :
    m' j < m' i := by
  have h1 := (abs_le.1 (C123_differences hs hy' hK hm hm' i j)).1
  linarith

/-- C123: likewise the means predicted for any query points. -/
theorem C123_predict {sigma : ℝ} (hs : 0 < sigma) {y l y' : List (IPair t)} (hy' : y'.Perm (y ++ l))
    {K W W' : Matrix (Fin t) (Fin t) ℝ} {m m' : Fin t → ℝ} (hm : IsMode sigma y K m) (hm' : IsMode sigma y' K m')
    (cov : CovFn d) (Y : Fin t → Pt d) {inv inv' : Matrix (Fin t) (Fin t) ℝ → Option (Matrix (Fin t) (Fin t) ℝ)}
    {X : Fin n → Pt d} {r r' : GPPred n} (hr : prefGpPredict cov Y K W m inv X = .ok r)
    (hr' : prefGpPredict cov Y K W' m' inv' X = .ok r') :
    ∃ Ks, cov _ _ X Y = .ok Ks ∧ ∀ x,
      |r'.mu x - r.mu x| ≤ Real.sqrt ((Ks * K⁻¹ * Ksᵀ) x x) * min (influence sigma m K l) (influence sigma m' K l) := by
  obtain ⟨Ks, h1, hK, h2⟩ := predict_inv hr
  obtain ⟨Ks', h1', -, h2'⟩ := predict_inv hr'
  have : Ks' = Ks := by rw [h1] at h1'; exact (Except.ok.inj h1').symm
  subst this
  refine ⟨Ks', h1, fun x => ?_⟩
  have hu : IsUnit K.det := (Matrix.isUnit_iff_isUnit_det _).1 hK.isUnit
  have h3 := cauchy_posDef hK (m' - m) (K⁻¹ *ᵥ Ks' x)
  have ht : K⁻¹ᵀ = K⁻¹ := by rw [transpose_nonsing_inv, posDef_transpose hK]
  have e1 : (K⁻¹ *ᵥ Ks' x) ⬝ᵥ (m' - m) = r'.mu x - r.mu x := by
    rw [h2, h2']
    show _ = Ks' x ⬝ᵥ (K⁻¹ *ᵥ m') - Ks' x ⬝ᵥ (K⁻¹ *ᵥ m)
    rw [← dotProduct_sub, ← mulVec_sub, dotProduct_mulVec, ← mulVec_transpose, ht]
  have e2 : (K⁻¹ *ᵥ Ks' x) ⬝ᵥ (K *ᵥ (K⁻¹ *ᵥ Ks' x)) = (Ks' * K⁻¹ * Ks'ᵀ) x x := by
    rw [mulVec_mulVec, mul_nonsing_inv _ hu, one_mulVec]
    conv_lhs => rw [← ht, mulVec_transpose]
    rfl
  rw [e1, e2] at h3
  have h5 : 0 ≤ (Ks' * K⁻¹ * Ks'ᵀ) x x := by
    rw [← e2]
    have := hK.posSemidef.dotProduct_mulVec_nonneg (K⁻¹ *ᵥ Ks' x)
    simpa only [star_trivial] using this
  have h4 := Real.abs_le_sqrt h3
  rw [Real.sqrt_mul h5] at h4
  exact h4.trans (mul_le_mul_of_nonneg_left (mode_change hs hy' hK hm hm') (Real.sqrt_nonneg _))

/-- C123: how strongly an answer can pull: for one the model agrees with at most `1 / (√π σ)`, for one that contradicts it by
`s` standard deviations of the answer noise at most `s / (√2 σ)` more. -/
theorem C123_pull {sigma : ℝ} (hs : 0 < sigma) (F : Fin n → ℝ) (p : IPair n) :
    pairPull sigma F p ≤ 1 / (Real.sqrt Real.pi * sigma) + surprise sigma F p / (Real.sqrt 2 * sigma) ∧
    surprise sigma F p ≤ pairPull sigma F p * (Real.sqrt 2 * sigma) := by
  have hq : 0 < Real.sqrt 2 * sigma := by positivity
  have hpi : 0 < Real.sqrt Real.pi := Real.sqrt_pos.2 Real.pi_pos
  have e : pairPull sigma F p = mratio (pairZ sigma F p) / (Real.sqrt 2 * sigma) := rfl
  constructor
  · have h := mratio_le_surprise (pairZ sigma F p)
    have e1 : 1 / (Real.sqrt Real.pi * sigma) = mratio 0 / (Real.sqrt 2 * sigma) := by
      rw [mratio_at_zero, Real.sqrt_div (by norm_num)]
      field_simp
    rw [e, e1, ← add_div]
    exact div_le_div_of_nonneg_right h hq.le
  · rw [e, div_mul_cancel₀ _ hq.ne']
    have h1 := mratio_pos (pairZ sigma F p)
    refine max_le h1.le ?_
    have h2 := Phi_neg_upper (-pairZ sigma F p)
    rw [neg_neg] at h2
    rw [mratio, le_div_iff₀ (Phi_pos _)]
    have h3 : phi (-pairZ sigma F p) = phi (pairZ sigma F p) := by simp [phi]
    rw [h3] at h2
    exact h2.le

/-- C123: for one answer the influence computed from the values fitted with it is the smaller one. -/
theorem C123_before {sigma : ℝ} (hs : 0 < sigma) {y y' : List (IPair n)} {p : IPair n} (hy' : y'.Perm (p :: y))
    {K : Matrix (Fin n) (Fin n) ℝ} (hK : K.PosDef) {m m' : Fin n → ℝ} (hm : IsMode sigma y K m) (hm' : IsMode sigma y' K m') :
    influence sigma m' K [p] ≤ influence sigma m K [p] := by
  have h := (C110_more hs y p hK hm hy' hm').1
  have hq : 0 < Real.sqrt 2 * sigma := by positivity
  have hz : pairZ sigma m p ≤ pairZ sigma m' p := by
    unfold pairZ
    exact div_le_div_of_nonneg_right h hq.le
  have h1 : pairPull sigma m' p ≤ pairPull sigma m p := div_le_div_of_nonneg_right (mratio_antitone hz) hq.le
  simp only [influence, List.map_cons, List.map_nil, List.sum_cons, List.sum_nil, add_zero]
  gcongr

/-- C123: the limit is attained: the first answer of all moves its two points apart by exactly this much. -/
theorem C123_attained {sigma : ℝ} (hs : 0 < sigma) {p : IPair n} {K : Matrix (Fin n) (Fin n) ℝ} (hK : K.PosDef)
    {m m' : Fin n → ℝ} (hm : IsMode sigma [] K m) (hm' : IsMode sigma [p] K m') :
    |(m' p.v - m' p.u) - (m p.v - m p.u)| = Real.sqrt (diffVar K p.v p.u) * influence sigma m' K [p] := by
  have h0 := (isMode_iff_fixed hK).1 hm
  have e0 : m = 0 := by
    rw [h0]
    have : pairGradV sigma [] m = 0 := by funext i; simp [pairGradV]
    rw [this, mulVec_zero]
  have h1 := (C110_representer hs [p] hK m').1.1 hm'
  have hp := pairPull_pos hs m' p
  have hd := diffVar_nonneg hK p.u p.v
  have e1 : (m' p.v - m' p.u) - (m p.v - m p.u) = pairPull sigma m' p * p.dk * diffVar K p.v p.u := by
    rw [e0, h1 p.v, h1 p.u]
    simp [diffVar]
    ring
  rw [e1, abs_mul, abs_mul, abs_of_pos hp, abs_of_nonneg hd]
  simp only [influence, List.map_cons, List.map_nil, List.sum_cons, List.sum_nil, add_zero]
  have := Real.mul_self_sqrt hd
  linear_combination (- (pairPull sigma m' p * |(p.dk : ℝ)|)) * this

/-- C123 for what is stored: two converged fits, the second to more answers, differ at no point by more than the limit and the
errors of the two fits. -/
theorem C123_stored (o : ModeOpts) (ho : o.normalizeGp = false) (P : ProbitSet) (hs : 0 < P.sigma)
    {y l y' : List (IPair (n + 1))} (hy' : y'.Perm (y ++ l)) {K : Matrix (Fin (n + 1)) (Fin (n + 1)) ℝ} (hK : K.PosDef)
    {invert : Matrix (Fin (n + 1)) (Fin (n + 1)) ℝ → Option (Matrix (Fin (n + 1)) (Fin (n + 1)) ℝ)}
    (hinv : InvertsInvertible invert) (F0 F0' F F' : Fin (n + 1) → ℝ) (k k' : Nat) (D D' : Option (Derivs (n + 1)))
    (h : findMode o P (onlyPairs y) K invert F0 = .ok ⟨some F, k, D⟩) (hk : k ≤ o.maxloops)
    (hr : ∀ G, ‖F - G‖ ≤ o.deltaF → PairsInRange P.sigma y G)
    (h' : findMode o P (onlyPairs y') K invert F0' = .ok ⟨some F', k', D'⟩) (hk' : k' ≤ o.maxloops)
    (hr' : ∀ G, ‖F' - G‖ ≤ o.deltaF → PairsInRange P.sigma y' G) :
    ∃ m m', IsMode P.sigma y K m ∧ IsMode P.sigma y' K m' ∧ ∀ i,
      |F' i - F i| ≤ Real.sqrt (K i i) * min (influence P.sigma m K l) (influence P.sigma m' K l) +
      (modeErrorFactor P.sigma y K i + modeErrorFactor P.sigma y' K i) * o.deltaF := by
  obtain ⟨m, hm, -⟩ := C97_mode_unique P.sigma y hK
  obtain ⟨m', hm', -⟩ := C97_mode_unique P.sigma y' hK
  refine ⟨m, m', hm, hm', fun i => ?_⟩
  have a1 := abs_le.1 (C97_converged o ho P hs.ne' y hK hinv F0 F k D h hk hr m hm i)
  have a2 := abs_le.1 (C97_converged o ho P hs.ne' y' hK hinv F0' F' k' D' h' hk' hr' m' hm' i)
  have a3 := abs_le.1 (C123_values hs hy' hK hm hm' i)
  rw [abs_le]
  constructor <;> linarith [a1.1, a1.2, a2.1, a2.2, a3.1, a3.2]

/-- Three points, two answers and a third that contradicts them. -/
example : ∃ m m', IsMode 1 [⟨1, 0, 1⟩, ⟨1, 1, 2⟩] (1 : Matrix (Fin 3) (Fin 3) ℝ) m ∧
    IsMode 1 [⟨-1, 0, 2⟩, ⟨1, 0, 1⟩, ⟨1, 1, 2⟩] (1 : Matrix (Fin 3) (Fin 3) ℝ) m' ∧
    |m' 0 - m 0| ≤ Real.sqrt ((1 : Matrix (Fin 3) (Fin 3) ℝ) 0 0) * influence 1 m 1 [⟨-1, 0, 2⟩] := by
  generalize hp : (⟨-1, 0, 2⟩ : IPair 3) = p
  generalize hy : ([⟨1, 0, 1⟩, ⟨1, 1, 2⟩] : List (IPair 3)) = y
  obtain ⟨m, hm, -⟩ := C97_mode_unique 1 y (Matrix.PosDef.one (n := Fin 3) (R := ℝ))
  obtain ⟨m', hm', -⟩ := C97_mode_unique 1 (p :: y) (Matrix.PosDef.one (n := Fin 3) (R := ℝ))
  refine ⟨m, m', hm, hm', ?_⟩
  have h1 := C123_values (y := y) (l := [p]) one_pos (List.perm_append_comm (l₁ := [p])) Matrix.PosDef.one hm hm' 0
  exact h1.trans (mul_le_mul_of_nonneg_left (min_le_left _ _) (Real.sqrt_nonneg _))

/-- Ten answers about two points and one about two others: the lead survives. -/
example {m m' : Fin 4 → ℝ} (hm : IsMode 1 (List.replicate 10 ⟨1, 0, 1⟩) (1 : Matrix (Fin 4) (Fin 4) ℝ) m)
    (hm' : IsMode 1 (List.replicate 10 ⟨1, 0, 1⟩ ++ [⟨1, 2, 3⟩]) (1 : Matrix (Fin 4) (Fin 4) ℝ) m') : m' 0 < m' 1 := by
  have hK : (1 : Matrix (Fin 4) (Fin 4) ℝ).PosDef := Matrix.PosDef.one
  refine C123_stable one_pos (List.Perm.refl _) hK hm hm' (lt_of_le_of_lt (mul_le_mul_of_nonneg_left (min_le_left _ _)
    (Real.sqrt_nonneg _)) ?_)
  have hr := (C110_representer one_pos _ hK m).1.1 hm
  simp only [List.map_replicate, List.sum_replicate] at hr
  have h0 := hr 0
  have h1 := hr 1
  have h2 := hr 2
  have h3 := hr 3
  simp [Matrix.one_apply] at h0 h1 h2 h3
  have hs2 : Real.sqrt 2 * Real.sqrt 2 = 2 := Real.mul_self_sqrt (by norm_num)
  have hs0 : 0 < Real.sqrt 2 := by positivity
  set z := pairZ 1 m ⟨1, 0, 1⟩ with hz
  have ez : z = (m 1 - m 0) / Real.sqrt 2 := by simp [hz, pairZ]
  have ep : pairPull 1 m ⟨1, 0, 1⟩ = mratio z / Real.sqrt 2 := by simp [pairPull, mratio, hz]
  have eq : pairPull 1 m ⟨1, 2, 3⟩ = mratio 0 / Real.sqrt 2 := by simp [pairPull, mratio, pairZ, h2, h3]
  have ed : m 1 - m 0 = z * Real.sqrt 2 := by rw [ez]; field_simp
  have hz10 : z = 10 * mratio z := by
    have : m 1 - m 0 = 20 * (mratio z / Real.sqrt 2) := by rw [h1, h0, ep]; ring
    rw [ed] at this
    have h5 : z * (Real.sqrt 2 * Real.sqrt 2) = 20 * mratio z := by
      rw [← mul_assoc, this]
      field_simp
    linarith [h5.symm.trans (by rw [hs2])]
  have hm1 : mratio 0 < 1 := by
    rw [mratio_at_zero, Real.sqrt_lt' one_pos, div_lt_iff₀ Real.pi_pos]
    linarith [Real.pi_gt_three]
  have hz1 : 1 < z := by
    by_contra h
    have a1 := mratio_antitone (not_lt.1 h)
    have a2 : 1 / 10 < mratio 1 := by
      rw [mratio, lt_div_iff₀ (Phi_pos _)]
      have a3 : Phi 1 ≤ 1 := by
        have := Phi_pos (-1)
        rw [Phi_neg] at this
        linarith
      have a4 : 1 / 2 ≤ Real.exp (-(1 : ℝ) ^ 2 / 2) := by
        have := Real.add_one_le_exp (-(1 : ℝ) ^ 2 / 2)
        linarith
      have a5 : Real.sqrt (2 * Real.pi) < 4 := by
        rw [Real.sqrt_lt' (by norm_num)]
        linarith [Real.pi_lt_four]
      have a6 : 0 < Real.sqrt (2 * Real.pi) := by have := Real.pi_pos; positivity
      rw [phi]
      refine lt_of_le_of_lt (by linarith : 1 / 10 * Phi 1 ≤ 1 / 10) ?_
      rw [lt_div_iff₀ a6]
      linarith
    linarith
  have e1 : diffVar (1 : Matrix (Fin 4) (Fin 4) ℝ) 1 0 = 2 := by norm_num [diffVar, Matrix.one_apply]
  have e2 : diffVar (1 : Matrix (Fin 4) (Fin 4) ℝ) 3 2 = 2 := by
    rw [diffVar, Matrix.one_apply_eq, Matrix.one_apply_eq, Matrix.one_apply_ne (by decide), Matrix.one_apply_ne (by decide)]
    norm_num
  rw [ed, e1]
  simp only [influence, List.map_cons, List.map_nil, List.sum_cons, List.sum_nil, add_zero, eq, e2]
  simp only [Int.cast_one, abs_one, mul_one, div_mul_cancel₀ _ hs0.ne']
  nlinarith

end Lop.Props
