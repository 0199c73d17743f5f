import Verif.Proofs.NoLabels
import Verif.Props.Laplace
import Verif.Props.FindMode
import Verif.Model.Data

/-! # C130: training points without labels -/

namespace Lop.Props

open Matrix Spec

variable {d n : Nat}

theorem step_noLabels (o : ModeOpts) (P : ProbitSet) {K : Matrix (Fin (n + 1)) (Fin (n + 1)) ℝ} (hK : K.PosDef)
    {invert : Matrix (Fin (n + 1)) (Fin (n + 1)) ℝ → Option (Matrix (Fin (n + 1)) (Fin (n + 1)) ℝ)} (hinv : InvertsInvertible invert)
    {F F' : Fin (n + 1) → ℝ} (hn : normalizeIterate o (-(1 / 32 : ℝ) • F) = some F') :
    findModeStep o P (noLabels (n + 1)) K invert (some F) = .ok (some F', open Classical in decide (o.deltaF < ‖F' - F‖)) := by
  simp only [findModeStep, update_noLabels P hK hinv F, Except.map, Option.bind_some, hn]

theorem fit_of_loop (o : ModeOpts) (P : ProbitSet) {K : Matrix (Fin (n + 1)) (Fin (n + 1)) ℝ} (hK : K.PosDef)
    {invert : Matrix (Fin (n + 1)) (Fin (n + 1)) ℝ → Option (Matrix (Fin (n + 1)) (Fin (n + 1)) ℝ)} {F0 F : Fin (n + 1) → ℝ} {k : Nat}
    (h : findModeLoop (findModeStep o P (noLabels (n + 1)) K invert) o.maxloops (o.maxloops + 2) (some F0) true 0 = some (.ok (some F, k))) :
    findMode o P (noLabels (n + 1)) K invert F0 = .ok ⟨some F, k, some (0, 0, 0)⟩ := by
  classical
  have hgo : (open Classical in decide K.PosDef) = true := decide_eq_true hK
  have hder : gpDerivatives P (noLabels (n + 1)) F = .ok (some (0, 0, 0)) := by
    simp [gpDerivatives, noLabels, ordPart, pairPart, absPart, Except.map]
  unfold findMode
  simp only [hgo, h, Bind.bind, Except.bind, hder, Except.map]

/-- C130: with points but no labels every pass of `find_mode` multiplies the values by `-1/32`; the derivatives stored are zero. The loop ends with
all values within `delta_f/33` of zero, unless the loop limit was reached, and makes no pass more than needed. -/
theorem C130_fit (o : ModeOpts) (ho : o.normalizeGp = false) (P : ProbitSet) {K : Matrix (Fin (n + 1)) (Fin (n + 1)) ℝ} (hK : K.PosDef)
    {invert : Matrix (Fin (n + 1)) (Fin (n + 1)) ℝ → Option (Matrix (Fin (n + 1)) (Fin (n + 1)) ℝ)} (hinv : InvertsInvertible invert)
    (F0 : Fin (n + 1) → ℝ) :
    ∃ k, findMode o P (noLabels (n + 1)) K invert F0 = .ok ⟨some fun i => (-(1 / 32)) ^ k * F0 i, k, some (0, 0, 0)⟩ ∧
      0 < k ∧ k ≤ o.maxloops + 1 ∧ (k ≤ o.maxloops → ∀ i, |(-(1 / 32)) ^ k * F0 i| ≤ o.deltaF / 33) ∧
      ∀ j, 0 < j → j < k → ∃ i, o.deltaF / 33 < |(-(1 / 32)) ^ j * F0 i| := by
  classical
  set s : Nat → Fin (n + 1) → ℝ := fun j i => (-(1 / 32)) ^ j * F0 i with hs
  have hnext : ∀ j, -(1 / 32 : ℝ) • s j = s (j + 1) := fun j => by
    ext i
    simp only [hs, Pi.smul_apply, smul_eq_mul, pow_succ]
    ring
  have hnorm : ∀ j, ‖s (j + 1) - s j‖ = 33 * ‖s (j + 1)‖ := fun j => by
    have : s (j + 1) - s j = (33 : ℝ) • s (j + 1) := by
      ext i
      simp only [hs, Pi.smul_apply, smul_eq_mul, pow_succ, Pi.sub_apply]
      ring
    rw [this, norm_smul]
    norm_num
  have hstep : ∀ j, findModeStep o P (noLabels (n + 1)) K invert (some (s j)) = .ok (some (s (j + 1)), decide (o.deltaF < 33 * ‖s (j + 1)‖)) := fun j => by
    rw [step_noLabels o P hK hinv (F := s j) (F' := s (j + 1)) (by simp only [normalizeIterate, ho, Bool.false_eq_true, if_false, hnext]), hnorm]
  have hs0 : s 0 = F0 := by ext i; simp [hs]
  have hdet : ∀ {G k F' go}, Steps (findModeStep o P (noLabels (n + 1)) K invert) G k F' go → G = some F0 → F' = some (s k) ∧
      (0 < k → go = decide (o.deltaF < 33 * ‖s k‖)) ∧ ∀ j, 0 < j → j < k → o.deltaF < 33 * ‖s j‖ := by
    intro G k F' go h
    induction h with
    | zero => intro hG; exact ⟨by rw [hs0, hG], by simp, by simp⟩
    | succ h1 h2 ih =>
      intro hG
      obtain ⟨e1, e2, e3⟩ := ih hG
      subst e1
      rw [hstep] at h2
      simp only [Except.ok.injEq, Prod.mk.injEq] at h2
      refine ⟨h2.1.symm, fun _ => h2.2.symm, fun j hj hjk => ?_⟩
      rcases Nat.lt_succ_iff_lt_or_eq.1 hjk with h | h
      · exact e3 j hj h
      · subst h
        exact of_decide_eq_true (e2 hj).symm
  rcases findModeLoop_steps (findModeStep o P (noLabels (n + 1)) K invert) o.maxloops (o.maxloops + 2) (some F0) (some F0) 0 (.zero _)
    (Nat.zero_le _) (by omega) with ⟨F', k, go, h1, h2, h3, h4⟩ | ⟨e, F', k, h1, h2, h3, h4⟩
  · obtain ⟨e1, e2, e3⟩ := hdet h3 rfl
    subst e1
    have hk0 : 0 < k := by
      rcases Nat.eq_zero_or_pos k with h | h
      · subst h
        generalize some (s 0) = G at h3
        cases h3
        simp at h4
      · exact h
    refine ⟨k, fit_of_loop o P hK h1, hk0, h2, fun hk i => ?_, fun j hj hjk => ?_⟩
    · have hgo : go = false := h4.resolve_right (by omega)
      have h5 := e2 hk0
      rw [hgo] at h5
      have h6 : ¬ o.deltaF < 33 * ‖s k‖ := of_decide_eq_false h5.symm
      have h7 := norm_le_pi_norm (s k) i
      rw [Real.norm_eq_abs] at h7
      simp only [hs] at h7
      rw [le_div_iff₀ (by norm_num)]
      linarith [not_lt.1 h6]
    · by_contra hcon
      push Not at hcon
      have h5 : ‖s j‖ ≤ o.deltaF / 33 := (pi_norm_le_iff_of_nonempty _).2 fun i => by
        rw [Real.norm_eq_abs]; exact hcon i
      have h6 := e3 j hj hjk
      rw [le_div_iff₀ (by norm_num)] at h5
      linarith
  · obtain ⟨e1, -, -⟩ := hdet h3 rfl
    subst e1
    rw [hstep] at h4
    cases h4

/-- C130 with the default settings: from start values between 0 and 1, as `find_mode` draws them, at most four passes are made, and the values
returned are at most 1/165000. -/
theorem C130_defaults (P : ProbitSet) {K : Matrix (Fin (n + 1)) (Fin (n + 1)) ℝ} (hK : K.PosDef)
    {invert : Matrix (Fin (n + 1)) (Fin (n + 1)) ℝ → Option (Matrix (Fin (n + 1)) (Fin (n + 1)) ℝ)} (hinv : InvertsInvertible invert)
    (F0 : Fin (n + 1) → ℝ) (h0 : ∀ i, 0 ≤ F0 i ∧ F0 i ≤ 1) :
    ∃ F k, findMode {} P (noLabels (n + 1)) K invert F0 = .ok ⟨some F, k, some (0, 0, 0)⟩ ∧ k ≤ 4 ∧ ∀ i, |F i| ≤ 1 / 165000 := by
  obtain ⟨k, h1, h2, h3, h4, h5⟩ := C130_fit {} rfl P hK hinv F0
  have hk : k ≤ 4 := by
    by_contra hcon
    obtain ⟨i, hi⟩ := h5 4 (by norm_num) (by omega)
    rw [abs_mul, abs_of_nonneg (h0 i).1] at hi
    have : |(-(1 / 32 : ℝ)) ^ 4| * F0 i ≤ |(-(1 / 32 : ℝ)) ^ 4| * 1 := mul_le_mul_of_nonneg_left (h0 i).2 (abs_nonneg _)
    norm_num at hi this
    linarith
  refine ⟨_, k, h1, hk, fun i => (h4 (by simpa using hk.trans (by norm_num)) i).trans (by norm_num)⟩

/-- C130, predictions: a model fitted to points without labels returns the covariance of the kernel, and as mean the interpolation of its random start
values, times `(-1/32)^k` after `k` passes. -/
theorem C130_predict (o : ModeOpts) (ho : o.normalizeGp = false) (P : ProbitSet) (ker : KExpr ℝ (Pt d)) (Y : Fin (n + 1) → Pt d)
    {K : Matrix (Fin (n + 1)) (Fin (n + 1)) ℝ} (hY : ker.cov Y Y = .ok K) (hK : K.PosDef)
    {invert : Matrix (Fin (n + 1)) (Fin (n + 1)) ℝ → Option (Matrix (Fin (n + 1)) (Fin (n + 1)) ℝ)} (hinv : InvertsInvertible invert)
    (F0 : Fin (n + 1) → ℝ) {m : Nat} (X : Fin m → Pt d) (hm : 0 < m) :
    ∃ F k p p0, findMode o P (noLabels (n + 1)) K invert F0 = .ok ⟨some F, k, some (0, 0, 0)⟩ ∧
      prefGpPredict (kcov ker) Y K 0 F invert X = .ok p ∧ prefGpPredict (kcov ker) Y K 0 F0 invert X = .ok p0 ∧
      ker.cov X X = .ok p.cov ∧ (∀ i, p.mu i = (-(1 / 32)) ^ k * p0.mu i) ∧
      (AllLeaves NoNoise ker → k ≤ o.maxloops → ∀ i j, X i = Y j → |p.mu i| ≤ o.deltaF / 33) := by
  obtain ⟨k, h1, h2, h3, h4, h5⟩ := C130_fit o ho P hK hinv F0
  obtain ⟨p, hp⟩ := C73_returns ker Y X hm hK Matrix.PosSemidef.zero (fun i => (-(1 / 32)) ^ k * F0 i) hinv
  obtain ⟨p0, hp0⟩ := C73_returns ker Y X hm hK Matrix.PosSemidef.zero F0 hinv
  refine ⟨_, k, p, p0, h1, hp, hp0, C73_no_labels ker Y _ X hp, fun i => ?_, fun hq hk i j hij => ?_⟩
  · obtain ⟨Ks, Kss, tmp, hKs, hKss, -, -, -, hmu, -⟩ := prefGpPredict_inv hp
    obtain ⟨Ks', Kss', tmp', hKs', hKss', -, -, -, hmu', -⟩ := prefGpPredict_inv hp0
    rw [hKs] at hKs'
    cases hKs'
    rw [hmu, hmu']
    have : (fun i => (-(1 / 32)) ^ k * F0 i) = ((-(1 / 32)) ^ k : ℝ) • F0 := rfl
    rw [this, mulVec_smul, mulVec_smul]
    rfl
  · rw [C73_mean ker hq Y hY _ X hp i j hij]
    exact h4 hk j

/-- C130 refuted for `normalize_gp=True`: every pass turns the sign and scales back to length 1, so the loop runs to its limit and the fit is
the random start, scaled, with a sign that depends on the parity of `maxloops` only. -/
theorem C130_normalized_false (o : ModeOpts) (ho : o.normalizeGp = true) (hp : o.normalizePositive = false) (hd : o.deltaF < 1) (P : ProbitSet)
    {K : Matrix (Fin (n + 1)) (Fin (n + 1)) ℝ} (hK : K.PosDef)
    {invert : Matrix (Fin (n + 1)) (Fin (n + 1)) ℝ → Option (Matrix (Fin (n + 1)) (Fin (n + 1)) ℝ)} (hinv : InvertsInvertible invert)
    {F0 : Fin (n + 1) → ℝ} (h0 : F0 ≠ 0) :
    findMode o P (noLabels (n + 1)) K invert F0 =
      .ok ⟨some fun i => (-1) ^ (o.maxloops + 1) * (F0 i / ‖F0‖), o.maxloops + 1, some (0, 0, 0)⟩ := by
  classical
  have hpos : 0 < ‖F0‖ := norm_pos_iff.2 h0
  set s : Nat → Fin (n + 1) → ℝ := fun j => if j = 0 then F0 else fun i => (-1) ^ j * (F0 i / ‖F0‖) with hs
  have hsj : ∀ j, s (j + 1) = fun i => (-1) ^ (j + 1) * (F0 i / ‖F0‖) := fun j => by simp [hs]
  have hunit : ∀ j, ‖s (j + 1)‖ = 1 := fun j => by
    have : s (j + 1) = ((-1) ^ (j + 1) * ‖F0‖⁻¹ : ℝ) • F0 := by
      rw [hsj]
      ext i
      simp only [Pi.smul_apply, smul_eq_mul, div_eq_mul_inv]
      ring
    rw [this, norm_smul]
    simp [hpos.ne']
  have key : ∀ F : Fin (n + 1) → ℝ, F ≠ 0 → normalizeIterate o (-(1 / 32 : ℝ) • F) = some fun i => -(F i / ‖F‖) := fun F hF => by
    have hF' : 0 < ‖F‖ := norm_pos_iff.2 hF
    have hnm : ‖-(1 / 32 : ℝ) • F‖ = 1 / 32 * ‖F‖ := by rw [norm_smul]; norm_num
    simp only [normalizeIterate, ho, hp, if_true, Bool.false_eq_true, if_false, hnm]
    rw [if_neg (by positivity)]
    congr 1
    ext i
    simp only [Pi.smul_apply, smul_eq_mul]
    field_simp
  have hnext : ∀ j, normalizeIterate o (-(1 / 32 : ℝ) • s j) = some (s (j + 1)) := fun j => by
    cases j with
    | zero =>
      rw [show s 0 = F0 from by simp [hs], key F0 h0, hsj]
      congr 1
      ext i
      simp
    | succ j =>
      have hne : s (j + 1) ≠ 0 := fun h => by
        have := hunit j
        rw [h] at this
        simp at this
      rw [key _ hne, hunit, hsj, hsj]
      congr 1
      ext i
      ring
  have hfar : ∀ j, o.deltaF < ‖s (j + 1) - s j‖ := fun j => by
    cases j with
    | zero =>
      have e : s 1 - s 0 = (-(‖F0‖⁻¹ + 1) : ℝ) • F0 := by
        rw [hsj 0, show s 0 = F0 from by simp [hs]]
        ext i
        simp only [Pi.sub_apply, Pi.smul_apply, smul_eq_mul, div_eq_mul_inv]
        ring
      rw [e, norm_smul, norm_neg, Real.norm_of_nonneg (by positivity), add_mul, inv_mul_cancel₀ hpos.ne']
      linarith
    | succ j =>
      have e : s (j + 1 + 1) - s (j + 1) = (2 : ℝ) • s (j + 1 + 1) := by
        rw [hsj, hsj]
        ext i
        simp only [Pi.sub_apply, Pi.smul_apply, smul_eq_mul, pow_succ]
        ring
      rw [e, norm_smul, hunit]
      norm_num
      linarith
  have hloop := findModeLoop_forever (step := findModeStep o P (noLabels (n + 1)) K invert) (s := fun j => some (s j)) o.maxloops
    (fun j _ => by rw [step_noLabels o P hK hinv (hnext j), decide_eq_true (hfar j)]) (o.maxloops + 2) 0 (Nat.zero_le _) (by omega)
  rw [show s 0 = F0 from by simp [hs]] at hloop
  have := fit_of_loop o P hK hloop
  rwa [hsj] at this

/-- C130 refuted for `normalize_positive=True`: every pass turns the order round, so the loop runs to its limit and the fit is the random start, rescaled to
the interval from 0 to 1, or one minus that. -/
theorem C130_positive_false (o : ModeOpts) (ho : o.normalizeGp = true) (hp : o.normalizePositive = true) (hd : o.deltaF < 1 / 2) (P : ProbitSet)
    {K : Matrix (Fin (n + 1)) (Fin (n + 1)) ℝ} (hK : K.PosDef)
    {invert : Matrix (Fin (n + 1)) (Fin (n + 1)) ℝ → Option (Matrix (Fin (n + 1)) (Fin (n + 1)) ℝ)} (hinv : InvertsInvertible invert)
    {F0 : Fin (n + 1) → ℝ} {a b : Fin (n + 1)} (h0 : F0 a ≠ F0 b) :
    findMode o P (noLabels (n + 1)) K invert F0 =
      .ok ⟨some fun i => if Even o.maxloops then 1 - toUnit F0 i else toUnit F0 i, o.maxloops + 1, some (0, 0, 0)⟩ := by
  classical
  set mn : (Fin (n + 1) → ℝ) → ℝ := fun F => Finset.univ.inf' Finset.univ_nonempty F with hmn
  set mx : (Fin (n + 1) → ℝ) → ℝ := fun F => Finset.univ.sup' Finset.univ_nonempty F with hmx
  have hle : ∀ F i, mn F ≤ F i := fun F i => Finset.inf'_le _ (Finset.mem_univ i)
  have hge : ∀ F i, F i ≤ mx F := fun F i => Finset.le_sup' _ (Finset.mem_univ i)
  have hmnat : ∀ F, ∃ i, F i = mn F := fun F => by
    obtain ⟨i, -, hi⟩ := Finset.exists_mem_eq_inf' Finset.univ_nonempty F
    exact ⟨i, hi.symm⟩
  have hmxat : ∀ F, ∃ i, F i = mx F := fun F => by
    obtain ⟨i, -, hi⟩ := Finset.exists_mem_eq_sup' Finset.univ_nonempty F
    exact ⟨i, hi.symm⟩
  have hmnu : ∀ F v, (∀ i, v ≤ F i) → (∃ i, F i = v) → mn F = v := fun F v h1 ⟨i, h2⟩ =>
    le_antisymm ((hle F i).trans h2.le) (Finset.le_inf' _ _ fun i _ => h1 i)
  have hmxu : ∀ F v, (∀ i, F i ≤ v) → (∃ i, F i = v) → mx F = v := fun F v h1 ⟨i, h2⟩ =>
    le_antisymm (Finset.sup'_le _ _ fun i _ => h1 i) (h2.ge.trans (hge F i))
  have key : ∀ F : Fin (n + 1) → ℝ, mn F < mx F → normalizeIterate o (-(1 / 32 : ℝ) • F) = some fun i => (mx F - F i) / (mx F - mn F) := by
    intro F hF
    have e1 : mn (-(1 / 32 : ℝ) • F) = -(1 / 32) * mx F := by
      obtain ⟨i, hi⟩ := hmxat F
      exact hmnu _ _ (fun j => by simp only [Pi.smul_apply, smul_eq_mul]; linarith [hge F j]) ⟨i, by simp [hi]⟩
    have e2 : mx (fun i => (-(1 / 32 : ℝ) • F) i - mn (-(1 / 32 : ℝ) • F)) = 1 / 32 * (mx F - mn F) := by
      obtain ⟨i, hi⟩ := hmnat F
      rw [e1]
      exact hmxu _ _ (fun j => by simp only [Pi.smul_apply, smul_eq_mul]; linarith [hle F j])
        ⟨i, by simp only [Pi.smul_apply, smul_eq_mul, hi]; ring⟩
    simp only [hmn, hmx] at e1 e2
    simp only [normalizeIterate, ho, hp, if_true, e2]
    rw [if_neg (by have : 0 < mx F - mn F := by linarith
                   simp only [hmn, hmx] at this; positivity), e1]
    congr 1
    ext i
    simp only [Pi.smul_apply, smul_eq_mul, hmn, hmx]
    have hne : Finset.univ.sup' Finset.univ_nonempty F - Finset.univ.inf' Finset.univ_nonempty F ≠ 0 := (sub_pos.2 hF).ne'
    field_simp
    ring
  have hlt0 : mn F0 < mx F0 := by
    rcases lt_or_gt_of_ne h0 with h | h
    · exact ((hle F0 a).trans_lt h).trans_le (hge F0 b)
    · exact ((hle F0 b).trans_lt h).trans_le (hge F0 a)
  have hD : 0 < mx F0 - mn F0 := by linarith
  set u : Fin (n + 1) → ℝ := toUnit F0 with hu
  have hui : ∀ i, u i = (F0 i - mn F0) / (mx F0 - mn F0) := fun i => rfl
  have hu0 : ∀ i, 0 ≤ u i := fun i => by rw [hui]; exact div_nonneg (by linarith [hle F0 i]) hD.le
  have hu1 : ∀ i, u i ≤ 1 := fun i => by rw [hui, div_le_one hD]; linarith [hge F0 i]
  obtain ⟨imn, himn⟩ := hmnat F0
  obtain ⟨imx, himx⟩ := hmxat F0
  have humn : u imn = 0 := by rw [hui, himn, sub_self, zero_div]
  have humx : u imx = 1 := by rw [hui, himx, div_self hD.ne']
  have hmnu' : mn u = 0 := hmnu _ _ hu0 ⟨imn, humn⟩
  have hmxu' : mx u = 1 := hmxu _ _ hu1 ⟨imx, humx⟩
  have hmnc : mn (fun i => 1 - u i) = 0 := hmnu _ _ (fun i => by linarith [hu1 i]) ⟨imx, by rw [humx]; ring⟩
  have hmxc : mx (fun i => 1 - u i) = 1 := hmxu _ _ (fun i => by linarith [hu0 i]) ⟨imn, by rw [humn]; ring⟩
  set s : Nat → Fin (n + 1) → ℝ := fun j => if j = 0 then F0 else if Even j then u else fun i => 1 - u i with hs
  have hnext : ∀ j, normalizeIterate o (-(1 / 32 : ℝ) • s j) = some (s (j + 1)) := fun j => by
    rcases Nat.eq_zero_or_pos j with h | h
    · subst h
      have e : s 1 = fun i => 1 - u i := by simp [hs]
      rw [show s 0 = F0 from by simp [hs], key F0 hlt0, e]
      congr 1
      ext i
      rw [hui]
      field_simp
      ring
    · by_cases hev : Even j
      · have e1 : s j = u := by simp [hs, h.ne', hev]
        have e2 : s (j + 1) = fun i => 1 - u i := by simp [hs, Nat.even_add_one, hev]
        rw [e1, e2, key u (by rw [hmnu', hmxu']; norm_num), hmnu', hmxu']
        simp
      · have e1 : s j = fun i => 1 - u i := by simp [hs, h.ne', hev]
        have e2 : s (j + 1) = u := by simp [hs, Nat.even_add_one, hev]
        rw [e1, e2, key _ (by rw [hmnc, hmxc]; norm_num), hmnc, hmxc]
        simp
  have hfar : ∀ j, o.deltaF < ‖s (j + 1) - s j‖ := fun j => by
    have hn : ∀ i, |s (j + 1) i - s j i| ≤ ‖s (j + 1) - s j‖ := fun i => by
      have := norm_le_pi_norm (s (j + 1) - s j) i
      rwa [Real.norm_eq_abs] at this
    rcases Nat.eq_zero_or_pos j with h | h
    · subst h
      have e : s 1 = fun i => 1 - u i := by simp [hs]
      have e0 : s 0 = F0 := by simp [hs]
      have h1 := hn imn
      have h2 := hn imx
      rw [zero_add, e, e0] at h1 h2
      simp only [humn, humx, himn, himx] at h1 h2
      rw [zero_add, e, e0]
      by_contra hcon
      push Not at hcon
      have h3 := (abs_le.1 (h1.trans hcon)).2
      have h4 := (abs_le.1 (h2.trans hcon)).1
      linarith
    · have h1 := hn imn
      have e : |s (j + 1) imn - s j imn| = 1 := by
        by_cases hev : Even j <;> simp [hs, h.ne', hev, Nat.even_add_one, humn]
      rw [e] at h1
      linarith
  have hloop := findModeLoop_forever (step := findModeStep o P (noLabels (n + 1)) K invert) (s := fun j => some (s j)) o.maxloops
    (fun j _ => by rw [step_noLabels o P hK hinv (hnext j), decide_eq_true (hfar j)]) (o.maxloops + 2) 0 (Nat.zero_le _) (by omega)
  rw [show s 0 = F0 from by simp [hs]] at hloop
  have := fit_of_loop o P hK hloop
  rw [this]
  congr 3
  ext i
  by_cases hev : Even o.maxloops <;> simp [hs, Nat.even_add_one, hev]

/-- C130 refuted for `normalize_positive=True` and a single point: the first pass divides 0 by 0, and the fit is NaN. -/
theorem C130_single_false (o : ModeOpts) (ho : o.normalizeGp = true) (hp : o.normalizePositive = true) (P : ProbitSet)
    {K : Matrix (Fin (0 + 1)) (Fin (0 + 1)) ℝ} (hK : K.PosDef)
    {invert : Matrix (Fin (0 + 1)) (Fin (0 + 1)) ℝ → Option (Matrix (Fin (0 + 1)) (Fin (0 + 1)) ℝ)} (hinv : InvertsInvertible invert)
    (F0 : Fin (0 + 1) → ℝ) : findMode o P (noLabels (0 + 1)) K invert F0 = .ok ⟨none, 1, none⟩ := by
  classical
  have hgo : (open Classical in decide K.PosDef) = true := decide_eq_true hK
  have hn : normalizeIterate o (-(1 / 32 : ℝ) • F0) = none := by
    simp [normalizeIterate, ho, hp]
  have hstep : findModeStep o P (noLabels (0 + 1)) K invert (some F0) = .ok (none, false) := by
    simp only [findModeStep, update_noLabels P hK hinv F0, Except.map, Option.bind_some, hn]
  have hloop : findModeLoop (findModeStep o P (noLabels (0 + 1)) K invert) o.maxloops (o.maxloops + 2) (some F0) true 0 =
      some (.ok (none, 1)) := by
    simp [findModeLoop, hstep]
  unfold findMode
  simp only [hgo, hloop, Bind.bind, Except.bind]

/-- C130: calls of `add(X, [])`, without Pareto pairs, raise nothing, store the points one after the other and leave the model without labels and to be fitted. -/
theorem C130_add {α R : Type*} [LinearOrder α] [Field R] [LinearOrder R] (Xs : List (List (Fin d → α))) (hne : Xs ≠ []) (st : ModelState d α R) (hy : st.y = {}) :
    let st' := Xs.foldl (fun st X => (modelAdd false st X (.pairs [])).1) st
    st'.y = {} ∧ st'.X = some (st.X.getD [] ++ Xs.flatten) ∧ st'.optimized = false ∧
      ∀ X, (modelAdd false st' X (.pairs [])).2 = none := by
  have key : ∀ (st : ModelState d α R) (X : List (Fin d → α)), st.y = {} →
      modelAdd false st X (.pairs []) = ({ st with X := some (st.X.getD [] ++ X), optimized := false }, none) := by
    intro st X h
    cases st
    simp only at h
    subst h
    simp [modelAdd, addLabels]
  induction Xs generalizing st with
  | nil => exact absurd rfl hne
  | cons X Xs ih =>
    simp only [List.foldl_cons]
    rw [key st X hy]
    cases Xs with
    | nil =>
      refine ⟨hy, by simp, rfl, fun Z => ?_⟩
      simp only [List.foldl_nil]
      rw [key { st with X := some (st.X.getD [] ++ X), optimized := false } Z hy]
    | cons Z Xs =>
      have := ih (by simp) { st with X := some (st.X.getD [] ++ X), optimized := false } hy
      simpa using this

/-- Non-trivial instances: two points, kernel matrix `[[2,1],[1,2]]`, exact inversion; start values different from each other and in the unit interval. -/
example : (!![2, 1; 1, 2] : Matrix (Fin 2) (Fin 2) ℝ).PosDef ∧ InvertsInvertible (n := 2) (fun M => some M⁻¹) ∧
    (∀ i, 0 ≤ (![1 / 2, 1 / 4] : Fin 2 → ℝ) i ∧ (![1 / 2, 1 / 4] : Fin 2 → ℝ) i ≤ 1) ∧
    (![1 / 2, 1 / 4] : Fin 2 → ℝ) 0 ≠ (![1 / 2, 1 / 4] : Fin 2 → ℝ) 1 := by
  refine ⟨?_, fun _ _ => rfl, fun i => by fin_cases i <;> norm_num, by norm_num⟩
  refine Matrix.PosDef.of_dotProduct_mulVec_pos (by ext i j; fin_cases i <;> fin_cases j <;> simp) fun x hx => ?_
  have e : star x ⬝ᵥ ((!![2, 1; 1, 2] : Matrix (Fin 2) (Fin 2) ℝ) *ᵥ x) = x 0 ^ 2 + x 1 ^ 2 + (x 0 + x 1) ^ 2 := by
    simp [dotProduct, mulVec, Fin.sum_univ_two]
    ring
  rw [e]
  by_contra hcon
  have h0 : x 0 = 0 := by nlinarith [sq_nonneg (x 0), sq_nonneg (x 1), sq_nonneg (x 0 + x 1)]
  have h1 : x 1 = 0 := by nlinarith [sq_nonneg (x 0), sq_nonneg (x 1), sq_nonneg (x 0 + x 1)]
  exact hx (by ext i; fin_cases i <;> simp [h0, h1])

/-- Options of the refuting theorems. -/
example : ({ normalizeGp := true } : ModeOpts).deltaF < 1 / 2 ∧ ({ normalizeGp := true } : ModeOpts).maxloops = 100 := by
  norm_num

/-- The kernel of `prior_only.py`, but without its noise, is covered by all clauses of `C130_predict`. -/
example : AllLeaves NoNoise (.leaf (.rbf (1 / 2) (7 / 10) 0) : KExpr ℝ (Pt 1)) := rfl

end Lop.Props
