import Verif.Spec.FindMode
import Verif.Proofs.ModeLoop
import Verif.Props.Laplace
import Verif.Props.Optim

/-! # C97: what `find_mode` stores is the posterior mode -/

namespace Lop.Props

open Lop.Spec Matrix

variable {n : Nat}

theorem isMode_iff {sigma : ℝ} {y : List (IPair n)} {K : Matrix (Fin n) (Fin n) ℝ} (hK : K.PosDef)
    {m : Fin n → ℝ} : IsMode sigma y K m ↔ ∀ G, pairLogLik sigma y G - 1 / 2 * (G ⬝ᵥ (K⁻¹ *ᵥ G)) ≤
      pairLogLik sigma y m - 1 / 2 * (m ⬝ᵥ (K⁻¹ *ᵥ m)) := by
  unfold IsMode
  rw [logPosterior_eq hK]
  refine forall_congr' fun G => ?_
  constructor <;> intro h <;> simp only at h ⊢ <;> linarith

theorem pairs_zk_range {sigma : ℝ} {y : List (IPair n)} {F : Fin n → ℝ} (h : PairsInRange sigma y F) :
    ∀ p ∈ y, -30 < zk sigma F p ∧ zk sigma F p < 100 := by
  intro p hp
  have := h p hp
  rwa [← zk_eq_pairZ] at this

/-- The objective of the line search for pairs. -/
private noncomputable def lineObj (P : ProbitSet) (y : List (IPair n)) (K : Matrix (Fin n) (Fin n) ℝ) (F d : Fin n → ℝ)
    (lam : ℝ) : ℝ :=
  prefLogLik P.sigma y (F - lam • d) - 1 / 2 * ((F - lam • d) ⬝ᵥ (K⁻¹ *ᵥ (F - lam • d))) - Real.log K.det / 2 -
    1 / 2 * n * Real.log (2 * Real.pi)

private lemma update_eq (P : ProbitSet) (y : List (IPair n)) (K : Matrix (Fin n) (Fin n) ℝ)
    (invert : Matrix (Fin n) (Fin n) ℝ → Option (Matrix (Fin n) (Fin n) ℝ)) (F : Fin n → ℝ) :
    ∃ d, d = descentDir (prefDerv P.sigma y F - K⁻¹ *ᵥ F) (-prefW P.sigma y F - K⁻¹) invert ∧
      findModeUpdate P (onlyPairs y) K invert F =
        .ok (some (F - binarySearch (lineObj P y K F d) 3 0 (3 / 2) • d)) := by
  refine ⟨_, rfl, ?_⟩
  have h1 : gpDerivatives P (onlyPairs y) F =
      .ok (some (prefW P.sigma y F, prefDerv P.sigma y F, prefLogLik P.sigma y F)) := by
    simp [gpDerivatives, onlyPairs, ordPart, pairPart, absPart, Except.map, prefDerivatives]
  have h2 : ∀ G, lossValue (likliF P (onlyPairs y) K G) = ((prefLogLik P.sigma y G - 1 / 2 * (G ⬝ᵥ (K⁻¹ *ᵥ G)) -
      Real.log K.det / 2 - 1 / 2 * n * Real.log (2 * Real.pi) : ℝ) : WithBot ℝ) := by
    intro G
    simp [likliF, logLikTraining, onlyPairs, ordLogPart, pairLogPart, absLogPart, Except.map, lossValue]
  simp only [findModeUpdate, h1, bind, Except.bind, modeGradHess, newtonUpdate, h2, pure, Except.pure]
  simp only [binarySearch]
  rw [binaryLoop_coe]
  rfl

/-- C97 for pairs: `find_mode` returns, whatever is clipped and whatever the inversion does; the stored derivatives
are those at the stored values; a converged fit took at most `maxloops` updates, any other one more. -/
theorem C97_returns (o : ModeOpts) (ho : o.normalizeGp = false) (P : ProbitSet) (y : List (IPair (n + 1)))
    (K : Matrix (Fin (n + 1)) (Fin (n + 1)) ℝ)
    (invert : Matrix (Fin (n + 1)) (Fin (n + 1)) ℝ → Option (Matrix (Fin (n + 1)) (Fin (n + 1)) ℝ))
    (F0 : Fin (n + 1) → ℝ) :
    ∃ F k, findMode o P (onlyPairs y) K invert F0 = .ok ⟨some F, k, some (prefDerivatives P.sigma y F)⟩ ∧
      k ≤ o.maxloops + 1 := by
  have hstep : ∀ F, ∃ F' b, findModeStep o P (onlyPairs y) K invert (some F) = .ok (some F', b) := by
    intro F
    obtain ⟨d, -, h⟩ := update_eq P y K invert F
    simp only [findModeStep, h, Except.map, Option.bind_some, normalizeIterate, ho, Bool.false_eq_true, if_false]
    exact ⟨_, _, rfl⟩
  have hder : ∀ F, gpDerivatives P (onlyPairs y) F = .ok (some (prefDerivatives P.sigma y F)) := by
    intro F
    simp [gpDerivatives, onlyPairs, ordPart, pairPart, absPart, Except.map, prefDerivatives]
  have hloop : ∀ fuel F go loops, loops ≤ o.maxloops → o.maxloops + 2 ≤ fuel + loops →
      ∃ F' k, findModeLoop (findModeStep o P (onlyPairs y) K invert) o.maxloops fuel (some F) go loops =
        some (.ok (some F', k)) ∧ k ≤ o.maxloops + 1 := by
    intro fuel
    induction fuel with
    | zero => intro F go loops h1 h2; omega
    | succ fuel ih =>
      intro F go loops h1 h2
      unfold findModeLoop
      cases go with
      | false => exact ⟨F, loops, rfl, by omega⟩
      | true =>
        obtain ⟨F', b, hs⟩ := hstep F
        simp only [if_true, hs]
        split_ifs with hc
        · exact ⟨F', loops + 1, rfl, by omega⟩
        · exact ih F' b (loops + 1) (by omega) (by omega)
  obtain ⟨F, k, h, hk⟩ := hloop (o.maxloops + 2) F0 (open Classical in decide K.PosDef) 0 (by omega) (by omega)
  refine ⟨F, k, ?_, hk⟩
  simp only [findMode, h, bind, Except.bind, hder, Except.map]

/-- The last update of a fit. -/
theorem fit_last_step {o : ModeOpts} {P : ProbitSet} {y : TrainLabels (n + 1)}
    {K : Matrix (Fin (n + 1)) (Fin (n + 1)) ℝ} (hK : K.PosDef)
    {invert : Matrix (Fin (n + 1)) (Fin (n + 1)) ℝ → Option (Matrix (Fin (n + 1)) (Fin (n + 1)) ℝ)}
    {F0 F' : Fin (n + 1) → ℝ} {k : Nat} {D : Option (Derivs (n + 1))}
    (h : findMode o P y K invert F0 = .ok ⟨some F', k, D⟩) :
    ∃ F F1, findModeUpdate P y K invert F = .ok (some F1) ∧ normalizeIterate o F1 = some F' ∧
      (k ≤ o.maxloops → ‖F' - F‖ ≤ o.deltaF) := by
  classical
  have hgo : (open Classical in decide K.PosDef) = true := decide_eq_true hK
  unfold findMode at h
  rw [hgo] at h
  simp only at h
  cases hl : findModeLoop (findModeStep o P y K invert) o.maxloops (o.maxloops + 2) (some F0) true 0 with
  | none => rw [hl] at h; simp at h
  | some r =>
    rw [hl] at h
    cases r with
    | error e => simp [bind, Except.bind] at h
    | ok r =>
      obtain ⟨F, k'⟩ := r
      simp only [bind, Except.bind] at h
      cases F with
      | none => simp at h
      | some F =>
        simp only at h
        cases hd : gpDerivatives P y F with
        | error e => rw [hd] at h; simp [Except.map] at h
        | ok d =>
          rw [hd] at h
          simp only [Except.map, Except.ok.injEq, ModeFit.mk.injEq, Option.some.injEq] at h
          obtain ⟨rfl, rfl, rfl⟩ := h
          rcases findModeLoop_last _ _ _ _ _ _ _ _ hl with ⟨h0, -⟩ | ⟨-, F1, b, hs, hb⟩
          · simp at h0
          · cases F1 with
            | none => simp [findModeStep] at hs
            | some G =>
              simp only [findModeStep] at hs
              cases hu : findModeUpdate P y K invert G with
              | error e => rw [hu] at hs; simp [Except.map] at hs
              | ok G1 =>
                rw [hu] at hs
                cases G1 with
                | none => simp [Except.map] at hs
                | some G1 =>
                  simp only [Except.map, Option.bind_some] at hs
                  cases hn : normalizeIterate o G1 with
                  | none => rw [hn] at hs; simp at hs
                  | some G2 =>
                    rw [hn] at hs
                    simp only [Except.ok.injEq, Prod.mk.injEq, Option.some.injEq] at hs
                    obtain ⟨rfl, hb2⟩ := hs
                    refine ⟨G, G1, hu, hn, fun hk => ?_⟩
                    rw [hb hk] at hb2
                    exact not_lt.1 (of_decide_eq_false hb2)

theorem search_lower (h : ℝ → ℝ) : 3 / 32 ≤ binarySearch h 3 0 (3 / 2) := by
  obtain ⟨a, b, h1, h2, h3, h4, h5, -⟩ := C28_interval h 3 0 (3 / 2 : ℝ) (by norm_num)
  rw [h5]
  norm_num at h4
  linarith

theorem pairCurvature_eq (sigma : ℝ) (y : List (IPair n)) :
    (y.map fun p => (p.dk : ℝ) ^ 2 * isqrt2sig sigma ^ 2).sum = pairCurvature sigma y := by
  unfold pairCurvature
  refine sum_map_congr fun p _ => ?_
  have h2 : Real.sqrt 2 ^ 2 = 2 := Real.sq_sqrt (by norm_num)
  rw [isqrt2sig, div_pow, mul_pow, h2]
  ring

/-- The Newton direction. -/
theorem newton_direction (P : ProbitSet) (hs : P.sigma ≠ 0) (y : List (IPair n)) {K : Matrix (Fin n) (Fin n) ℝ}
    (hK : K.PosDef) {invert : Matrix (Fin n) (Fin n) ℝ → Option (Matrix (Fin n) (Fin n) ℝ)}
    (hinv : InvertsInvertible invert) {F : Fin n → ℝ} (hr : PairsInRange P.sigma y F) {d : Fin n → ℝ}
    (hd : d = descentDir (prefDerv P.sigma y F - K⁻¹ *ᵥ F) (-prefW P.sigma y F - K⁻¹) invert) :
    d = -((K⁻¹ + prefW P.sigma y F)⁻¹ *ᵥ (prefDerv P.sigma y F - K⁻¹ *ᵥ F)) ∧
      (K⁻¹ + prefW P.sigma y F) *ᵥ d = -(prefDerv P.sigma y F - K⁻¹ *ᵥ F) := by
  have hpd : (K⁻¹ + prefW P.sigma y F).PosDef := hK.inv.add_posSemidef (C37_W_psd P.sigma hs y F hr).1
  generalize prefW P.sigma y F = W at *
  generalize prefDerv P.sigma y F - K⁻¹ *ᵥ F = g at *
  have hneg : -W - K⁻¹ = -(K⁻¹ + W) := by abel
  have hu : IsUnit (K⁻¹ + W).det := (Matrix.isUnit_iff_isUnit_det _).1 hpd.isUnit
  have hdet : IsUnit (-W - K⁻¹).det := by
    rw [hneg, ← Matrix.isUnit_iff_isUnit_det, IsUnit.neg_iff]
    exact hpd.isUnit
  have hinv2 : (-(K⁻¹ + W))⁻¹ = -(K⁻¹ + W)⁻¹ :=
    Matrix.inv_eq_right_inv (by rw [neg_mul_neg, mul_nonsing_inv _ hu])
  have h1 : d = -((K⁻¹ + W)⁻¹ *ᵥ g) := by
    rw [hd]
    simp only [descentDir, hinv _ hdet]
    rw [hneg, hinv2, vecMul_neg, ← mulVec_transpose, posDef_transpose hpd.inv]
  refine ⟨h1, ?_⟩
  rw [h1, mulVec_neg, mulVec_mulVec, mul_nonsing_inv _ hu, one_mulVec]

/-- After a small last step the mode is near. -/
theorem near_mode_fit (P : ProbitSet) (hs : P.sigma ≠ 0) (y : List (IPair n)) {K : Matrix (Fin n) (Fin n) ℝ}
    (hK : K.PosDef) {invert : Matrix (Fin n) (Fin n) ℝ → Option (Matrix (Fin n) (Fin n) ℝ)}
    (hinv : InvertsInvertible invert) {F F1 : Fin n → ℝ} {δ : ℝ} (hu : findModeUpdate P (onlyPairs y) K invert F = .ok (some F1))
    (hΔ : ‖F1 - F‖ ≤ δ) (hrF : PairsInRange P.sigma y F) {m : Fin n → ℝ} (hm : IsMode P.sigma y K m) (i : Fin n) :
    |F1 i - m i| ≤ modeErrorFactor P.sigma y K i * δ := by
  have hδ : 0 ≤ δ := (norm_nonneg _).trans hΔ
  obtain ⟨d, hdd, hupd⟩ := update_eq P y K invert F
  rw [hupd] at hu
  simp only [Except.ok.injEq, Option.some.injEq] at hu
  obtain ⟨-, hdir⟩ := newton_direction P hs y hK hinv hrF hdd
  have hl := search_lower (lineObj P y K F d)
  generalize binarySearch (lineObj P y K F d) 3 0 (3 / 2) = lam at hu hl
  have hΔ2 : F1 - F = -(lam • d) := by rw [← hu]; abel
  have hnear := near_max hK (C37_concave P.sigma y) (C37_derivatives P.sigma y F hrF).2.1 ((isMode_iff hK).1 hm)
  simp only [prefDerivatives] at hnear
  have hx : ∀ i, |(F1 - F) i| ≤ δ := fun i => (norm_le_pi_norm (F1 - F) i).trans hΔ
  obtain ⟨hq, hv⟩ := prefW_bounds (sigma := P.sigma) y (pairs_zk_range hrF) hδ hx
  rw [pairCurvature_eq] at hq hv
  have hgd : (K⁻¹ + prefW P.sigma y F) *ᵥ (F1 - F) = lam • (prefDerv P.sigma y F - K⁻¹ *ᵥ F) := by
    rw [hΔ2, mulVec_neg, mulVec_smul, hdir, smul_neg, neg_neg]
  have h2 : |F1 i - F i| ≤ δ := hx i
  generalize prefW P.sigma y F = W at *
  generalize prefDerv P.sigma y F - K⁻¹ *ᵥ F = g at *
  generalize F1 - F = Δ at *
  have hKu : IsUnit K.det := (Matrix.isUnit_iff_isUnit_det _).1 hK.isUnit
  have hlam : lam ^ 2 * (g ⬝ᵥ (K *ᵥ g)) =
      Δ ⬝ᵥ (K⁻¹ *ᵥ Δ) + 2 * (Δ ⬝ᵥ (W *ᵥ Δ)) + (W *ᵥ Δ) ⬝ᵥ (K *ᵥ (W *ᵥ Δ)) := by
    have e : lam ^ 2 * (g ⬝ᵥ (K *ᵥ g)) = (lam • g) ⬝ᵥ (K *ᵥ (lam • g)) := by
      simp only [mulVec_smul, dotProduct_smul, smul_dotProduct, smul_eq_mul]
      ring
    have e1 : K *ᵥ (K⁻¹ *ᵥ Δ) = Δ := by rw [mulVec_mulVec, mul_nonsing_inv _ hKu, one_mulVec]
    have e2 : (K⁻¹ *ᵥ Δ) ⬝ᵥ (K *ᵥ (W *ᵥ Δ)) = Δ ⬝ᵥ (W *ᵥ Δ) := by
      rw [dotProduct_mulVec, ← mulVec_transpose, posDef_transpose hK, e1]
    rw [e, ← hgd, add_mulVec, mulVec_add, e1, add_dotProduct, dotProduct_add, dotProduct_add, e2,
      dotProduct_comm (K⁻¹ *ᵥ Δ) Δ, dotProduct_comm (W *ᵥ Δ) Δ]
    ring
  have b1 := quad_le_sum K⁻¹ hx
  have b2 := quad_le_sum K hv
  set c := pairCurvature P.sigma y with hc
  set S := entrySum K⁻¹ + 8 * c + 4 * c ^ 2 * entrySum K with hS
  have htot : lam ^ 2 * (g ⬝ᵥ (K *ᵥ g)) ≤ δ ^ 2 * S := by
    rw [hlam, hS]
    simp only [entrySum]
    nlinarith
  have hq0 : 0 ≤ g ⬝ᵥ (K *ᵥ g) := by
    have := hK.posSemidef.dotProduct_mulVec_nonneg g
    simpa only [star_trivial] using this
  have hgk : g ⬝ᵥ (K *ᵥ g) ≤ (32 / 3 * δ) ^ 2 * S := by
    have : (3 / 32 : ℝ) ^ 2 ≤ lam ^ 2 := by gcongr
    nlinarith
  have hKi : 0 < K i i := hK.diag_pos
  have hent := entry_sq_le hK (F - m) i
  have hsq : |F i - m i| ≤ 32 / 3 * δ * Real.sqrt (K i i * S) := by
    have h1 : (F i - m i) ^ 2 ≤ (32 / 3 * δ) ^ 2 * (K i i * S) := by
      have := hent.trans (mul_le_mul_of_nonneg_left (hnear.trans hgk) hKi.le)
      simp only [Pi.sub_apply] at this
      linarith
    have h2 := Real.abs_le_sqrt h1
    rwa [Real.sqrt_mul (sq_nonneg _), Real.sqrt_sq (by positivity)] at h2
  have h1 : |F1 i - m i| ≤ |F1 i - F i| + |F i - m i| := abs_sub_le _ _ _
  unfold modeErrorFactor
  rw [← hc, ← hS]
  nlinarith

/-- C97: a fit of pair labels that converged (at most `maxloops` updates, no normalisation) is within an explicit
multiple of the tolerance `delta_f` of the posterior mode, if nothing is clipped near it: at every point the stored
value differs from that of the mode by at most `modeErrorFactor · delta_f`. -/
theorem C97_converged (o : ModeOpts) (ho : o.normalizeGp = false) (P : ProbitSet) (hs : P.sigma ≠ 0)
    (y : List (IPair (n + 1))) {K : Matrix (Fin (n + 1)) (Fin (n + 1)) ℝ} (hK : K.PosDef)
    {invert : Matrix (Fin (n + 1)) (Fin (n + 1)) ℝ → Option (Matrix (Fin (n + 1)) (Fin (n + 1)) ℝ)}
    (hinv : InvertsInvertible invert) (F0 F' : Fin (n + 1) → ℝ) (k : Nat) (D : Option (Derivs (n + 1)))
    (h : findMode o P (onlyPairs y) K invert F0 = .ok ⟨some F', k, D⟩) (hk : k ≤ o.maxloops)
    (hr : ∀ G, ‖F' - G‖ ≤ o.deltaF → PairsInRange P.sigma y G) (m : Fin (n + 1) → ℝ) (hm : IsMode P.sigma y K m)
    (i : Fin (n + 1)) : |F' i - m i| ≤ modeErrorFactor P.sigma y K i * o.deltaF := by
  obtain ⟨F, F1, hu, hn, hd⟩ := fit_last_step hK h
  simp only [normalizeIterate, ho, Bool.false_eq_true, if_false, Option.some.injEq] at hn
  subst hn
  exact near_mode_fit P hs y hK hinv hu (hd hk) (hr F (hd hk)) hm i

/-- C97 with the settings of the constructor, which have no parameters: `find_mode` ends after at most 101 passes, and unless it
used all of them each entry is within `1/5000` times the factor of the mode. -/
theorem C97_defaults (P : ProbitSet) (hs : P.sigma ≠ 0) (y : List (IPair (n + 1)))
    {K : Matrix (Fin (n + 1)) (Fin (n + 1)) ℝ} (hK : K.PosDef)
    {invert : Matrix (Fin (n + 1)) (Fin (n + 1)) ℝ → Option (Matrix (Fin (n + 1)) (Fin (n + 1)) ℝ)}
    (hinv : InvertsInvertible invert) (F0 : Fin (n + 1) → ℝ) :
    ∃ F k, findMode {} P (onlyPairs y) K invert F0 = .ok ⟨some F, k, some (prefDerivatives P.sigma y F)⟩ ∧ k ≤ 101 ∧
      (k ≤ 100 → (∀ G, ‖F - G‖ ≤ 1 / 5000 → PairsInRange P.sigma y G) → ∀ m, IsMode P.sigma y K m →
        ∀ i, |F i - m i| ≤ modeErrorFactor P.sigma y K i * (1 / 5000)) := by
  obtain ⟨F, k, h, hk⟩ := C97_returns {} rfl P y K invert F0
  have e : ({} : ModeOpts).deltaF = 1 / 5000 := by norm_num
  refine ⟨F, k, h, hk, fun hk' hr m hm i => ?_⟩
  rw [← e]
  exact C97_converged {} rfl P hs y hK hinv F0 F k _ h hk' (by rw [e]; exact hr) m hm i

/-- The posterior of pair labels has exactly one mode, so `C97_converged` always has something to say; it lies within
the prior's ellipsoid of level `2 m log 2` for `m` pairs. -/
theorem C97_mode_unique (sigma : ℝ) (y : List (IPair n)) {K : Matrix (Fin n) (Fin n) ℝ} (hK : K.PosDef) :
    ∃ m, IsMode sigma y K m ∧ (∀ m', IsMode sigma y K m' → m' = m) ∧
      m ⬝ᵥ (K⁻¹ *ᵥ m) ≤ 2 * y.length * Real.log 2 := by
  have e0 : pairLogLik sigma y 0 = -(y.length * Real.log 2) := by
    have : ∀ p : IPair n, Real.log (Phi (pairZ sigma 0 p)) = -Real.log 2 := by
      intro p
      have : pairZ sigma (0 : Fin n → ℝ) p = 0 := by simp [pairZ]
      rw [this, Phi_zero, one_div, Real.log_inv]
    simp only [pairLogLik, this]
    simp
  have e1 : ∀ F, pairLogLik sigma y F ≤ 0 := by
    intro F
    unfold pairLogLik
    have := sum_map_nonneg (l := y) (f := fun p => -Real.log (Phi (pairZ sigma F p))) fun p _ =>
      neg_nonneg.2 (Real.log_nonpos (Phi_pos _).le (Phi_lt_one _).le)
    rw [← sum_map_neg] at this
    linarith
  have hq0 : ∀ F : Fin n → ℝ, 0 ≤ F ⬝ᵥ (K⁻¹ *ᵥ F) := by
    intro F
    have := hK.inv.posSemidef.dotProduct_mulVec_nonneg F
    simpa only [star_trivial] using this
  have hlog : 0 ≤ Real.log 2 := Real.log_nonneg (by norm_num)
  have hcq : Continuous fun F : Fin n → ℝ => F ⬝ᵥ (K⁻¹ *ᵥ F) := by
    simp only [dotProduct, mulVec]
    fun_prop
  have hcl : Continuous (pairLogLik sigma y) := by
    unfold pairLogLik
    refine continuous_list_sum y fun p _ => ?_
    have hz : Continuous fun F : Fin n → ℝ => pairZ sigma F p := by
      unfold pairZ
      fun_prop
    exact (continuous_Phi.comp hz).log fun F => (Phi_pos _).ne'
  set c := 2 * y.length * Real.log 2 with hc
  have hc0 : 0 ≤ c := by positivity
  have hcomp : IsCompact {F : Fin n → ℝ | F ⬝ᵥ (K⁻¹ *ᵥ F) ≤ c} := by
    refine Metric.isCompact_of_isClosed_isBounded (isClosed_le hcq continuous_const) ?_
    rw [isBounded_iff_forall_norm_le]
    refine ⟨1 + c * ∑ i, K i i, fun F hF => ?_⟩
    have hd : ∀ i, 0 ≤ K i i := fun i => hK.diag_pos.le
    have hs : 0 ≤ ∑ i, K i i := Finset.sum_nonneg fun i _ => hd i
    refine (pi_norm_le_iff_of_nonneg (by positivity)).2 fun i => ?_
    have h1 := entry_sq_le hK F i
    have h2 : K i i ≤ ∑ i, K i i := Finset.single_le_sum (fun j _ => hd j) (Finset.mem_univ i)
    have hF' : F ⬝ᵥ (K⁻¹ *ᵥ F) ≤ c := hF
    have h3 : F i ^ 2 ≤ c * ∑ i, K i i := by
      refine h1.trans ?_
      rw [mul_comm c]
      exact mul_le_mul h2 hF' (hq0 F) hs
    rw [Real.norm_eq_abs]
    have h4 : |F i| ^ 2 ≤ c * ∑ i, K i i := by rwa [sq_abs]
    nlinarith [abs_nonneg (F i), sq_nonneg (|F i| - 1)]
  obtain ⟨m, hm, hmax⟩ := hcomp.exists_isMaxOn ⟨0, by simpa using hc0⟩
    ((hcl.sub (hcq.const_mul (1 / 2))).continuousOn)
  have hmode : ∀ G, pairLogLik sigma y G - 1 / 2 * (G ⬝ᵥ (K⁻¹ *ᵥ G)) ≤
      pairLogLik sigma y m - 1 / 2 * (m ⬝ᵥ (K⁻¹ *ᵥ m)) := by
    intro G
    by_cases hG : G ⬝ᵥ (K⁻¹ *ᵥ G) ≤ c
    · exact hmax hG
    · have h0 : pairLogLik sigma y 0 - 1 / 2 * ((0 : Fin n → ℝ) ⬝ᵥ (K⁻¹ *ᵥ 0)) ≤
          pairLogLik sigma y m - 1 / 2 * (m ⬝ᵥ (K⁻¹ *ᵥ m)) := hmax (by simpa using hc0)
      rw [e0] at h0
      simp only [mulVec_zero, dotProduct_zero, mul_zero, sub_zero] at h0
      push Not at hG
      linarith [e1 G]
  refine ⟨m, (isMode_iff hK).2 hmode, fun m' hm' => ?_, hm⟩
  have h1 := strong_max hK (C37_concave sigma y) (F := m') hmode
  have h2 := (isMode_iff hK).1 hm' m
  have h3 : (m' - m) ⬝ᵥ (K⁻¹ *ᵥ (m' - m)) ≤ 0 := by linarith
  funext i
  have h4 := entry_sq_le hK (m' - m) i
  have h5 : K i i * ((m' - m) ⬝ᵥ (K⁻¹ *ᵥ (m' - m))) ≤ 0 := mul_nonpos_of_nonneg_of_nonpos hK.diag_pos.le h3
  have h6 : (m' - m) i = 0 := pow_eq_zero_iff (two_ne_zero) |>.1 (le_antisymm (h4.trans h5) (sq_nonneg _))
  simpa [sub_eq_zero] using h6

/-- C28/C97, the line search on a concave objective does not end below its left end, unless it ends at the smallest
step it can return. -/
theorem C28_no_descent {R : Type*} [Field R] [LinearOrder R] [IsStrictOrderedRing R] (g : R → R) (itr : Nat)
    (mn mx : R) (h : mn < mx) (hg : ConcaveOn R (Set.Icc mn mx) g) :
    g mn ≤ g (binarySearch g itr mn mx) ∨ binarySearch g itr mn mx = mn + (mx - mn) / 2 ^ itr / 2 := by
  obtain ⟨h1, h2, h3, h4⟩ := binaryLoop_interval g itr mn mx h.le
  rcases binaryLoop_no_descent hg itr mn mx le_rfl h le_rfl (.inl rfl) with h5 | h5
  · refine .inr ?_
    simp only [binarySearch]
    rw [← h4, h5]
    ring
  · exact .inl h5

/-- The proviso of `C28_no_descent` is needed: on a concave objective whose maximum lies before the smallest step the
search returns a step that lowers it. -/
theorem C28_descent_false : ConcaveOn ℚ (Set.Icc 0 (3 / 2)) (fun x : ℚ => -(x - 1 / 100) ^ 2) ∧
    -(binarySearch (fun x : ℚ => -(x - 1 / 100) ^ 2) 3 0 (3 / 2) - 1 / 100) ^ 2 < -((0 : ℚ) - 1 / 100) ^ 2 := by
  refine ⟨⟨convex_Icc _ _, fun x _ y _ a b ha hb hab => ?_⟩, by decide +kernel⟩
  simp only [smul_eq_mul]
  obtain rfl : b = 1 - a := by linarith
  have : 0 ≤ a * (1 - a) * (x - y) ^ 2 := by positivity
  nlinarith

/-- C97: an update of `find_mode` on pair labels does not lower the log posterior density, unless it takes the smallest
step of the line search, `3/32` of the Newton step (nothing clipped between the iterate and 3/2 of the Newton step). -/
theorem C97_no_descent (P : ProbitSet) (hs : P.sigma ≠ 0) (y : List (IPair n)) {K : Matrix (Fin n) (Fin n) ℝ}
    (hK : K.PosDef) {invert : Matrix (Fin n) (Fin n) ℝ → Option (Matrix (Fin n) (Fin n) ℝ)}
    (hinv : InvertsInvertible invert) (F : Fin n → ℝ) :
    let s := (K⁻¹ + prefW P.sigma y F)⁻¹ *ᵥ (prefDerv P.sigma y F - K⁻¹ *ᵥ F)
    PairsInRange P.sigma y F → PairsInRange P.sigma y (F + (3 / 2 : ℝ) • s) →
    ∃ F', findModeUpdate P (onlyPairs y) K invert F = .ok (some F') ∧
      (logPosterior K (pairLogLik P.sigma y) F ≤ logPosterior K (pairLogLik P.sigma y) F' ∨
        F' = F + (3 / 32 : ℝ) • s) := by
  intro s hr0 hr1
  obtain ⟨d, hdd, hupd⟩ := update_eq P y K invert F
  obtain ⟨hd, -⟩ := newton_direction P hs y hK hinv hr0 hdd
  have hds : d = -s := hd
  have hrange : ∀ x : ℝ, 0 ≤ x → x ≤ 3 / 2 → PairsInRange P.sigma y (F - x • d) := by
    intro x h0 h1 p hp
    have e : ∀ t : ℝ, pairZ P.sigma (F + t • s) p = pairZ P.sigma F p + t * pairZ P.sigma s p := by
      intro t
      simp only [pairZ, Pi.add_apply, Pi.smul_apply, smul_eq_mul]
      ring
    have e0 : F - x • d = F + x • s := by rw [hds, smul_neg, sub_neg_eq_add]
    obtain ⟨a1, a2⟩ := hr0 p hp
    obtain ⟨b1, b2⟩ := hr1 p hp
    rw [e] at b1 b2
    rw [e0, e]
    generalize pairZ P.sigma F p = u at *
    generalize pairZ P.sigma s p = v at *
    rcases le_total 0 v with hv | hv
    · have := mul_le_mul_of_nonneg_right h1 hv
      have := mul_nonneg h0 hv
      constructor <;> linarith
    · have := mul_le_mul_of_nonpos_right h1 hv
      have := mul_nonpos_of_nonneg_of_nonpos h0 hv
      constructor <;> linarith
  have hobj : ∀ x : ℝ, 0 ≤ x → x ≤ 3 / 2 → lineObj P y K F d x = logPosterior K (pairLogLik P.sigma y) (F - x • d) := by
    intro x h0 h1
    have := (C37_derivatives P.sigma y _ (hrange x h0 h1)).1
    simp only [prefDerivatives] at this
    rw [logPosterior_eq hK]
    simp only [lineObj, this]
    ring
  have hconc : ConcaveOn ℝ (Set.Icc 0 (3 / 2)) fun x : ℝ => logPosterior K (pairLogLik P.sigma y) (F - x • d) := by
    refine ⟨convex_Icc _ _, fun x _ z _ a b ha hb hab => ?_⟩
    rw [logPosterior_eq hK]
    simp only [smul_eq_mul]
    have hL := (C37_concave P.sigma y).2 (Set.mem_univ (F - x • d)) (Set.mem_univ (F - z • d)) ha hb hab
    have e : a • (F - x • d) + b • (F - z • d) = F - (a * x + b * z) • d := by
      have : b = 1 - a := by linarith
      subst this
      module
    rw [e] at hL
    simp only [smul_eq_mul] at hL
    have hq := hK.inv.posSemidef.dotProduct_mulVec_nonneg ((F - x • d) - (F - z • d))
    simp only [star_trivial] at hq
    have hquad : (F - (a * x + b * z) • d) ⬝ᵥ (K⁻¹ *ᵥ (F - (a * x + b * z) • d)) =
        a * ((F - x • d) ⬝ᵥ (K⁻¹ *ᵥ (F - x • d))) + b * ((F - z • d) ⬝ᵥ (K⁻¹ *ᵥ (F - z • d))) -
          a * b * (((F - x • d) - (F - z • d)) ⬝ᵥ (K⁻¹ *ᵥ ((F - x • d) - (F - z • d)))) := by
      rw [← e]
      have : b = 1 - a := by linarith
      subst this
      simp only [mulVec_add, mulVec_sub, mulVec_smul, dotProduct_add, add_dotProduct, dotProduct_sub, sub_dotProduct,
        dotProduct_smul, smul_dotProduct, smul_eq_mul]
      ring
    have hab0 := mul_nonneg (mul_nonneg ha hb) hq
    obtain rfl : b = 1 - a := by linarith
    nlinarith
  have hsearch : binarySearch (lineObj P y K F d) 3 0 (3 / 2) =
      binarySearch (fun x : ℝ => logPosterior K (pairLogLik P.sigma y) (F - x • d)) 3 0 (3 / 2) := by
    simp only [binarySearch]
    rw [binaryLoop_congr 3 0 (3 / 2) (by norm_num) hobj]
  rw [hsearch] at hupd
  refine ⟨_, hupd, ?_⟩
  rcases C28_no_descent _ 3 0 (3 / 2 : ℝ) (by norm_num) hconc with h | h
  · refine .inl ?_
    simpa using h
  · refine .inr ?_
    rw [h, hds, smul_neg, sub_neg_eq_add]
    norm_num

/-- The unnormalised log posterior along a line is strongly concave. -/
private lemma line_concave (sigma : ℝ) (y : List (IPair n)) {K : Matrix (Fin n) (Fin n) ℝ} (hK : K.PosDef)
    (F s : Fin n → ℝ) (S : Set ℝ) (hS : Convex ℝ S) :
    ConcaveOn ℝ S (fun x : ℝ => -modeCost sigma y K (F + x • s)) ∧
      ConcaveOn ℝ S fun x : ℝ => -modeCost sigma y K (F + x • s) + (s ⬝ᵥ (K⁻¹ *ᵥ s)) / 2 * x ^ 2 := by
  have hq : 0 ≤ s ⬝ᵥ (K⁻¹ *ᵥ s) := by
    have := hK.inv.posSemidef.dotProduct_mulVec_nonneg s
    simpa only [star_trivial] using this
  have e : ∀ x : ℝ, (F + x • s) ⬝ᵥ (K⁻¹ *ᵥ (F + x • s)) =
      F ⬝ᵥ (K⁻¹ *ᵥ F) + x * (F ⬝ᵥ (K⁻¹ *ᵥ s) + s ⬝ᵥ (K⁻¹ *ᵥ F)) + x ^ 2 * (s ⬝ᵥ (K⁻¹ *ᵥ s)) := by
    intro x
    simp only [mulVec_add, mulVec_smul, dotProduct_add, add_dotProduct, dotProduct_smul, smul_dotProduct, smul_eq_mul]
    ring
  have hL : ∀ x z a b : ℝ, 0 ≤ a → 0 ≤ b → a + b = 1 → a * pairLogLik sigma y (F + x • s) +
      b * pairLogLik sigma y (F + z • s) ≤ pairLogLik sigma y (F + (a * x + b * z) • s) := by
    intro x z a b ha hb hab
    have hL := (C37_concave sigma y).2 (Set.mem_univ (F + x • s)) (Set.mem_univ (F + z • s)) ha hb hab
    have e : a • (F + x • s) + b • (F + z • s) = F + (a * x + b * z) • s := by
      have : b = 1 - a := by linarith
      subst this
      module
    rw [e] at hL
    simpa only [smul_eq_mul] using hL
  constructor
  · refine ⟨hS, fun x _ z _ a b ha hb hab => ?_⟩
    have := hL x z a b ha hb hab
    simp only [smul_eq_mul, modeCost, e]
    have h2 : 0 ≤ a * b * (x - z) ^ 2 * (s ⬝ᵥ (K⁻¹ *ᵥ s)) := by positivity
    obtain rfl : b = 1 - a := by linarith
    nlinarith
  · refine ⟨hS, fun x _ z _ a b ha hb hab => ?_⟩
    have := hL x z a b ha hb hab
    simp only [smul_eq_mul, modeCost, e]
    obtain rfl : b = 1 - a := by linarith
    nlinarith

theorem modeCost_nonneg (sigma : ℝ) (y : List (IPair n)) {K : Matrix (Fin n) (Fin n) ℝ} (hK : K.PosDef)
    (F : Fin n → ℝ) : 0 ≤ modeCost sigma y K F ∧ F ⬝ᵥ (K⁻¹ *ᵥ F) ≤ 2 * modeCost sigma y K F := by
  have e1 : pairLogLik sigma y F ≤ 0 := by
    unfold pairLogLik
    have := sum_map_nonneg (l := y) (f := fun p => -Real.log (Phi (pairZ sigma F p))) fun p _ =>
      neg_nonneg.2 (Real.log_nonpos (Phi_pos _).le (Phi_lt_one _).le)
    rw [← sum_map_neg] at this
    linarith
  have hq : 0 ≤ F ⬝ᵥ (K⁻¹ *ᵥ F) := by
    have := hK.inv.posSemidef.dotProduct_mulVec_nonneg F
    simpa only [star_trivial] using this
  unfold modeCost
  constructor <;> linarith

/-- An update is a step of the line search along the Newton direction; it lowers the cost by a multiple of the squared
Newton step. -/
theorem mode_update_gain (P : ProbitSet) (hs : P.sigma ≠ 0) (y : List (IPair n)) {K : Matrix (Fin n) (Fin n) ℝ}
    (hK : K.PosDef) (hsig : pairSignal P.sigma y K ≤ 20)
    {invert : Matrix (Fin n) (Fin n) ℝ → Option (Matrix (Fin n) (Fin n) ℝ)}
    (hinv : InvertsInvertible invert) {F : Fin n → ℝ} {A : ℝ} (hA : modeCost P.sigma y K F ≤ A)
    (hr : ∀ G, G ⬝ᵥ (K⁻¹ *ᵥ G) ≤ 125 * A → PairsInRange P.sigma y G) :
    ∃ (s : Fin n → ℝ) (lam : ℝ), 0 ≤ lam ∧ lam ≤ 45 / 32 ∧
      findModeUpdate P (onlyPairs y) K invert F = .ok (some (F + lam • s)) ∧
      modeCost P.sigma y K (F + lam • s) + 3 / 2048 * (s ⬝ᵥ (K⁻¹ *ᵥ s)) ≤ modeCost P.sigma y K F ∧
      lam = binarySearch (fun x : ℝ => -modeCost P.sigma y K (F + x • s)) 3 0 (3 / 2) ∧
      (K⁻¹ + prefW P.sigma y F) *ᵥ s = prefDerv P.sigma y F - K⁻¹ *ᵥ F := by
  obtain ⟨hc0, hc2⟩ := modeCost_nonneg P.sigma y hK F
  have hr0 : PairsInRange P.sigma y F := hr F (by linarith)
  obtain ⟨d, hdd, hupd⟩ := update_eq P y K invert F
  obtain ⟨hd, hHd⟩ := newton_direction P hs y hK hinv hr0 hdd
  set s := -d with hsd
  have hds : d = -s := by rw [hsd, neg_neg]
  set q := s ⬝ᵥ (K⁻¹ *ᵥ s) with hqdef
  have hq : 0 ≤ q := by
    have := hK.inv.posSemidef.dotProduct_mulVec_nonneg s
    simpa only [star_trivial] using this
  -- derivative along the step
  set D := (prefDerv P.sigma y F - K⁻¹ *ᵥ F) ⬝ᵥ s with hD
  have hDq : q ≤ D := by
    have hHs : (K⁻¹ + prefW P.sigma y F) *ᵥ s = prefDerv P.sigma y F - K⁻¹ *ᵥ F := by
      rw [hsd, mulVec_neg, hHd, neg_neg]
    rw [hD, ← hHs, dotProduct_comm, add_mulVec, dotProduct_add]
    have := (C37_W_psd P.sigma hs y F hr0).1.dotProduct_mulVec_nonneg s
    simp only [star_trivial] at this
    linarith
  have hsq : (y.map fun p => pairZ P.sigma s p ^ 2).sum ≤ 20 * q := by
    have h1 : (y.map fun p => pairZ P.sigma s p ^ 2).sum ≤ (y.map fun p => (p.dk : ℝ) ^ 2 *
        (K p.u p.u + K p.v p.v - 2 * K p.u p.v) / (2 * P.sigma ^ 2) * q).sum :=
      List.sum_le_sum fun p _ => pairZ_sq_le hK s p
    rw [← sum_map_mul] at h1
    exact h1.trans (mul_le_mul_of_nonneg_right hsig hq)
  have hcross : s ⬝ᵥ (K⁻¹ *ᵥ F) = F ⬝ᵥ (K⁻¹ *ᵥ s) := by
    rw [dotProduct_mulVec, ← mulVec_transpose, posDef_transpose hK.inv, dotProduct_comm]
  have hlow : ∀ t : ℝ, modeCost P.sigma y K (F + t • s) ≤ modeCost P.sigma y K F - t * D + t ^ 2 / 2 * (21 * q) := by
    intro t
    have h1 := pairLogLik_lower P.sigma y F s t
    rw [← prefDerv_dot P.sigma y F s (pairs_zk_range hr0)] at h1
    have h2 : (F + t • s) ⬝ᵥ (K⁻¹ *ᵥ (F + t • s)) = F ⬝ᵥ (K⁻¹ *ᵥ F) + 2 * t * (F ⬝ᵥ (K⁻¹ *ᵥ s)) + t ^ 2 * q := by
      simp only [mulVec_add, mulVec_smul, dotProduct_add, add_dotProduct, dotProduct_smul, smul_dotProduct, smul_eq_mul,
        hcross, hqdef]
      ring
    have h3 : D = prefDerv P.sigma y F ⬝ᵥ s - F ⬝ᵥ (K⁻¹ *ᵥ s) := by
      rw [hD, sub_dotProduct, dotProduct_comm (K⁻¹ *ᵥ F) s, hcross]
    have h4 := mul_le_mul_of_nonneg_left hsq (by positivity : 0 ≤ t ^ 2 / 2)
    simp only [modeCost, h2, h3]
    linarith
  have hDA : D ≤ 42 * A := by
    have := hlow (1 / 21)
    have := (modeCost_nonneg P.sigma y hK (F + (1 / 21 : ℝ) • s)).1
    linarith
  have hrange : ∀ x : ℝ, 0 ≤ x → x ≤ 3 / 2 → PairsInRange P.sigma y (F + x • s) := by
    intro x h0 h1
    refine hr _ ?_
    have h2 := hK.inv.posSemidef.dotProduct_mulVec_nonneg ((7 : ℝ) • F - x • s)
    simp only [star_trivial] at h2
    simp only [mulVec_add, mulVec_sub, mulVec_smul, dotProduct_add, add_dotProduct, dotProduct_sub, sub_dotProduct,
      dotProduct_smul, smul_dotProduct, smul_eq_mul, hcross, ← hqdef] at h2 ⊢
    have h3 : x * x * q ≤ 9 / 4 * (42 * A) := by
      have : x * x ≤ 9 / 4 := by nlinarith
      exact mul_le_mul this (hDq.trans hDA) hq (by norm_num)
    nlinarith
  have hobj : ∀ x : ℝ, 0 ≤ x → x ≤ 3 / 2 → lineObj P y K F d x =
      -modeCost P.sigma y K (F + x • s) + (-(Real.log K.det / 2) - 1 / 2 * n * Real.log (2 * Real.pi)) := by
    intro x h0 h1
    have := (C37_derivatives P.sigma y _ (hrange x h0 h1)).1
    simp only [prefDerivatives] at this
    have e0 : F - x • d = F + x • s := by rw [hds, smul_neg, sub_neg_eq_add]
    simp only [lineObj, e0, this, modeCost]
    ring
  set g : ℝ → ℝ := fun x => -modeCost P.sigma y K (F + x • s) with hg
  have hsearch : binarySearch (lineObj P y K F d) 3 0 (3 / 2) = binarySearch g 3 0 (3 / 2) := by
    simp only [binarySearch]
    rw [binaryLoop_congr 3 0 (3 / 2) (by norm_num) hobj]
    have : ∀ (k : Nat) (c a b : ℝ), binaryLoop (fun x => g x + c) k a b = binaryLoop g k a b := by
      intro k c
      induction k with
      | zero => intro a b; rfl
      | succ k ih =>
        intro a b
        simp only [binaryLoop, ih, gt_iff_lt, add_lt_add_iff_right]
    rw [this]
  obtain ⟨hcon, hstr⟩ := line_concave P.sigma y hK F s (Set.Icc 0 (3 / 2)) (convex_Icc _ _)
  have hgain := binaryLoop_gain (w := 3 / 16) hq (by norm_num) hcon hstr 3 0 (3 / 2) le_rfl (by norm_num) le_rfl
    (.inl rfl)
  obtain ⟨b1, b2, b3, b4⟩ := binaryLoop_interval g 3 0 (3 / 2) (by norm_num)
  refine ⟨s, binarySearch g 3 0 (3 / 2), ?_, ?_, ?_, ?_, rfl, by rw [hsd, mulVec_neg, hHd, neg_neg]⟩
  · simp only [binarySearch]
    linarith
  · simp only [binarySearch]
    norm_num at b4
    linarith
  · rw [hupd, hsearch, hds, smul_neg, sub_neg_eq_add]
  · have h0 : g 0 = -modeCost P.sigma y K F := by simp [hg]
    rcases hgain with h | h
    · have : binarySearch g 3 0 (3 / 2) = 3 / 32 := by
        simp only [binarySearch]
        norm_num at b4
        have h' : (binaryLoop g 3 0 (3 / 2)).1 = 0 := h
        linarith
      rw [this]
      have := hlow (3 / 32)
      linarith
    · have h' : g 0 + 3 / 8 * q * (3 / 16) ^ 2 ≤ g (binarySearch g 3 0 (3 / 2)) := h
      rw [h0] at h'
      simp only [hg] at h' ⊢
      linarith

/-- C97, convergence: if the labels carry little information (`pairSignal` at most 20) and nothing is clipped where the
iteration goes, then `find_mode` converges from every start before a loop limit known beforehand, and what it stores is
within `modeErrorFactor · delta_f` of the posterior mode. -/
theorem C97_converges (o : ModeOpts) (ho : o.normalizeGp = false) (hδ : 0 < o.deltaF) (P : ProbitSet)
    (hs : P.sigma ≠ 0) (y : List (IPair (n + 1))) {K : Matrix (Fin (n + 1)) (Fin (n + 1)) ℝ} (hK : K.PosDef)
    (hsig : pairSignal P.sigma y K ≤ 20) {v : ℝ} (hv : ∀ i, K i i ≤ v)
    {invert : Matrix (Fin (n + 1)) (Fin (n + 1)) ℝ → Option (Matrix (Fin (n + 1)) (Fin (n + 1)) ℝ)}
    (hinv : InvertsInvertible invert) (F0 : Fin (n + 1) → ℝ)
    (hr : ∀ G, G ⬝ᵥ (K⁻¹ *ᵥ G) ≤ 125 * modeCost P.sigma y K F0 → PairsInRange P.sigma y G)
    (hmax : 1350 * v * modeCost P.sigma y K F0 / o.deltaF ^ 2 + 1 ≤ o.maxloops) :
    ∃ F' k, findMode o P (onlyPairs y) K invert F0 = .ok ⟨some F', k, some (prefDerivatives P.sigma y F')⟩ ∧
      (k : ℝ) ≤ 1350 * v * modeCost P.sigma y K F0 / o.deltaF ^ 2 + 1 ∧
      (∀ m, IsMode P.sigma y K m → ∀ i, |F' i - m i| ≤ modeErrorFactor P.sigma y K i * o.deltaF) ∧
      logPosterior K (pairLogLik P.sigma y) F0 ≤ logPosterior K (pairLogLik P.sigma y) F' := by
  classical
  set A := modeCost P.sigma y K F0 with hAdef
  have hv0 : 0 < v := lt_of_lt_of_le hK.diag_pos (hv 0)
  have hder : ∀ F, gpDerivatives P (onlyPairs y) F = .ok (some (prefDerivatives P.sigma y F)) := by
    intro F
    simp [gpDerivatives, onlyPairs, ordPart, pairPart, absPart, Except.map, prefDerivatives]
  set c := o.deltaF ^ 2 / (1350 * v) with hcdef
  have hc : 0 < c := by positivity
  have hAc : 1350 * v * A / o.deltaF ^ 2 = A / c := by
    rw [hcdef]
    field_simp
  rw [hAc] at hmax ⊢
  have hstep : ∀ F, modeCost P.sigma y K F ≤ A → ∃ F' b, findModeUpdate P (onlyPairs y) K invert F = .ok (some F') ∧
      findModeStep o P (onlyPairs y) K invert (some F) = .ok (some F', b) ∧
      modeCost P.sigma y K F' ≤ modeCost P.sigma y K F ∧
      (b = false → ‖F' - F‖ ≤ o.deltaF) ∧ (b = true → modeCost P.sigma y K F' + c ≤ modeCost P.sigma y K F) := by
    intro F hF
    obtain ⟨s, lam, hl0, hl1, hu, hgain, -⟩ := mode_update_gain P hs y hK hsig hinv hF hr
    have hq : 0 ≤ s ⬝ᵥ (K⁻¹ *ᵥ s) := by
      have := hK.inv.posSemidef.dotProduct_mulVec_nonneg s
      simpa only [star_trivial] using this
    refine ⟨F + lam • s, decide (o.deltaF < ‖F + lam • s - F‖), hu, ?_, by linarith, ?_, ?_⟩
    · simp [findModeStep, hu, Except.map, normalizeIterate, ho]
    · intro hb
      exact not_lt.1 (of_decide_eq_false hb)
    · intro hb
      have hb' := of_decide_eq_true hb
      rw [add_sub_cancel_left] at hb'
      have hn : ‖lam • s‖ ^ 2 ≤ (45 / 32) ^ 2 * v * (s ⬝ᵥ (K⁻¹ *ᵥ s)) := by
        have hle : ‖lam • s‖ ≤ Real.sqrt ((45 / 32) ^ 2 * v * (s ⬝ᵥ (K⁻¹ *ᵥ s))) := by
          refine (pi_norm_le_iff_of_nonneg (Real.sqrt_nonneg _)).2 fun i => ?_
          rw [Real.norm_eq_abs]
          refine Real.abs_le_sqrt ?_
          simp only [Pi.smul_apply, smul_eq_mul]
          rw [mul_pow]
          have h1 := entry_sq_le hK s i
          have h2 : lam ^ 2 ≤ (45 / 32) ^ 2 := by gcongr
          have h3 : s i ^ 2 ≤ v * (s ⬝ᵥ (K⁻¹ *ᵥ s)) := h1.trans (mul_le_mul_of_nonneg_right (hv i) hq)
          calc lam ^ 2 * s i ^ 2 ≤ (45 / 32) ^ 2 * (v * (s ⬝ᵥ (K⁻¹ *ᵥ s))) :=
                mul_le_mul h2 h3 (sq_nonneg _) (by norm_num)
            _ = _ := by ring
        calc ‖lam • s‖ ^ 2 ≤ Real.sqrt ((45 / 32) ^ 2 * v * (s ⬝ᵥ (K⁻¹ *ᵥ s))) ^ 2 := by gcongr
          _ = _ := Real.sq_sqrt (by positivity)
      have h4 : o.deltaF ^ 2 ≤ ‖lam • s‖ ^ 2 := by gcongr
      have h5 : c ≤ 3 / 2048 * (s ⬝ᵥ (K⁻¹ *ᵥ s)) := by
        rw [hcdef, div_le_iff₀ (by positivity)]
        nlinarith
      linarith
  have hloop : ∀ fuel F (loops : Nat), modeCost P.sigma y K F + loops * c ≤ A → o.maxloops + 2 ≤ fuel + loops →
      ∃ F1 F' k, findModeLoop (findModeStep o P (onlyPairs y) K invert) o.maxloops fuel (some F) true loops =
        some (.ok (some F', k)) ∧ (k : ℝ) ≤ A / c + 1 ∧ modeCost P.sigma y K F1 ≤ A ∧ modeCost P.sigma y K F' ≤ A ∧
        findModeUpdate P (onlyPairs y) K invert F1 = .ok (some F') ∧ ‖F' - F1‖ ≤ o.deltaF := by
    intro fuel
    induction fuel with
    | zero =>
      intro F loops h1 h2
      exfalso
      have h3 := (modeCost_nonneg P.sigma y hK F).1
      have h4 : (loops : ℝ) ≤ A / c := by
        rw [le_div_iff₀ hc]
        linarith
      have h5 : ((o.maxloops + 2 : Nat) : ℝ) ≤ loops := by exact_mod_cast (by omega : o.maxloops + 2 ≤ loops)
      push_cast at h5
      linarith
    | succ fuel ih =>
      intro F loops h1 h2
      have h3 := (modeCost_nonneg P.sigma y hK F).1
      have h4 : (loops : ℝ) ≤ A / c := by
        rw [le_div_iff₀ hc]
        linarith
      have hl : loops + 1 ≤ o.maxloops := by
        have : ((loops + 1 : Nat) : ℝ) ≤ o.maxloops := by push_cast; linarith
        exact_mod_cast this
      have hFA : modeCost P.sigma y K F ≤ A := by
        have : 0 ≤ (loops : ℝ) * c := by positivity
        linarith
      obtain ⟨F', b, hu, hst, hle, hf, ht⟩ := hstep F hFA
      unfold findModeLoop
      simp only [if_true, hst]
      rw [if_neg (by omega)]
      cases b with
      | false =>
        refine ⟨F, F', loops + 1, ?_, by push_cast; linarith, hFA, hle.trans hFA, hu, hf rfl⟩
        cases fuel with
        | zero => omega
        | succ fuel => simp [findModeLoop]
      | true =>
        refine ih F' (loops + 1) ?_ (by omega)
        push_cast
        linarith [ht rfl]
  obtain ⟨F1, F', k, hl, hk, hF1, hF', hu, hn⟩ := hloop (o.maxloops + 2) F0 0 (by simp [hAdef]) (by omega)
  have hgo : (open Classical in decide K.PosDef) = true := decide_eq_true hK
  refine ⟨F', k, ?_, hk, fun m hm i => near_mode_fit P hs y hK hinv hu hn (hr F1 ?_) hm i, ?_⟩
  · unfold findMode
    rw [hgo]
    simp only [hl, bind, Except.bind, hder, Except.map]
  · have := modeCost_nonneg P.sigma y hK F1
    linarith
  · rw [logPosterior_eq hK]
    simp only [modeCost] at hF' hAdef
    simp only
    linarith

/-- C97, convergence, with all hypotheses in terms of the input: the range condition of `C97_converges` holds if the
signal-to-noise ratio times the cost of the start is at most 7. -/
theorem C97_unclipped {sigma : ℝ} (y : List (IPair n)) {K : Matrix (Fin n) (Fin n) ℝ} (hK : K.PosDef) (F0 : Fin n → ℝ)
    (h : pairSignal sigma y K * modeCost sigma y K F0 ≤ 7) (G : Fin n → ℝ)
    (hG : G ⬝ᵥ (K⁻¹ *ᵥ G) ≤ 125 * modeCost sigma y K F0) : PairsInRange sigma y G := by
  intro p hp
  have hvar : ∀ p : IPair n, 0 ≤ (p.dk : ℝ) ^ 2 * (K p.u p.u + K p.v p.v - 2 * K p.u p.v) / (2 * sigma ^ 2) := by
    intro p
    have h1 := hK.posSemidef.dotProduct_mulVec_nonneg (Pi.single p.v 1 - Pi.single p.u 1)
    simp only [star_trivial] at h1
    have hsym : K p.v p.u = K p.u p.v := by
      conv_lhs => rw [← posDef_transpose hK]
      rfl
    have e2 : (Pi.single p.v (1 : ℝ) - Pi.single p.u 1) ⬝ᵥ (K *ᵥ (Pi.single p.v 1 - Pi.single p.u 1)) =
        K p.u p.u + K p.v p.v - 2 * K p.u p.v := by
      rw [mulVec_sub, sub_dotProduct, dotProduct_sub, dotProduct_sub]
      simp [mulVec_single, hsym]
      ring
    rw [e2] at h1
    positivity
  have hq : 0 ≤ G ⬝ᵥ (K⁻¹ *ᵥ G) := by
    have := hK.inv.posSemidef.dotProduct_mulVec_nonneg G
    simpa only [star_trivial] using this
  have h1 := pairZ_sq_le (sigma := sigma) hK G p
  have h2 : (p.dk : ℝ) ^ 2 * (K p.u p.u + K p.v p.v - 2 * K p.u p.v) / (2 * sigma ^ 2) ≤ pairSignal sigma y K := by
    unfold pairSignal
    refine List.single_le_sum ?_ _ (List.mem_map.2 ⟨p, hp, rfl⟩)
    intro x hx
    obtain ⟨p', -, rfl⟩ := List.mem_map.1 hx
    exact hvar p'
  have h3 : pairZ sigma G p ^ 2 ≤ 875 := by
    refine h1.trans ((mul_le_mul h2 hG hq ((hvar p).trans h2)).trans ?_)
    linarith
  constructor <;> nlinarith

/-- C97 is violated without a Cholesky factor (for example two equal training points and no kernel noise): the stored
values are the random start, whatever the labels say. -/
theorem C97_singular_false (o : ModeOpts) (P : ProbitSet) (y : List (IPair (n + 1)))
    {K : Matrix (Fin (n + 1)) (Fin (n + 1)) ℝ} (hK : ¬ K.PosDef)
    (invert : Matrix (Fin (n + 1)) (Fin (n + 1)) ℝ → Option (Matrix (Fin (n + 1)) (Fin (n + 1)) ℝ))
    (F0 : Fin (n + 1) → ℝ) :
    findMode o P (onlyPairs y) K invert F0 = .ok ⟨some F0, 0, some (prefDerivatives P.sigma y F0)⟩ := by
  classical
  have hgo : (open Classical in decide K.PosDef) = false := decide_eq_false hK
  have hder : gpDerivatives P (onlyPairs y) F0 = .ok (some (prefDerivatives P.sigma y F0)) := by
    simp [gpDerivatives, onlyPairs, ordPart, pairPart, absPart, Except.map, prefDerivatives]
  unfold findMode
  rw [hgo]
  simp [findModeLoop, bind, Except.bind, hder, Except.map]

private lemma normalized {o : ModeOpts} (ho : o.normalizeGp = true) {F G : Fin (n + 1) → ℝ}
    (h : normalizeIterate o F = some G) :
    (∀ i, |G i| ≤ 1) ∧ (∃ i, |G i| = 1) ∧
      (o.normalizePositive = true → (∀ i, 0 ≤ G i) ∧ (∃ i, G i = 0) ∧ ∃ i, G i = 1) := by
  unfold normalizeIterate at h
  rw [ho] at h
  simp only [if_true] at h
  cases hp : o.normalizePositive with
  | true =>
    rw [hp] at h
    simp only [if_true] at h
    set mn := Finset.univ.inf' Finset.univ_nonempty F with hmn
    set mx := Finset.univ.sup' Finset.univ_nonempty (fun i => F i - mn) with hmx
    split_ifs at h with h0
    simp only [Option.some.injEq] at h
    subst h
    have h1 : ∀ i, 0 ≤ F i - mn := fun i => sub_nonneg.2 (Finset.inf'_le _ (Finset.mem_univ i))
    have h2 : ∀ i, F i - mn ≤ mx := fun i => Finset.le_sup' (fun i => F i - mn) (Finset.mem_univ i)
    have hpos : 0 < mx := lt_of_le_of_ne ((h1 0).trans (h2 0)) (Ne.symm h0)
    have h3 : ∀ i, 0 ≤ (F i - mn) / mx := fun i => div_nonneg (h1 i) hpos.le
    have h4 : ∀ i, (F i - mn) / mx ≤ 1 := fun i => (div_le_one hpos).2 (h2 i)
    obtain ⟨a, -, ha⟩ := Finset.exists_mem_eq_inf' Finset.univ_nonempty F
    obtain ⟨b, -, hb⟩ := Finset.exists_mem_eq_sup' Finset.univ_nonempty (fun i => F i - mn)
    have hb1 : (F b - mn) / mx = 1 := by rw [hmx, hb]; exact div_self (by rw [← hb]; exact h0)
    refine ⟨fun i => abs_le.2 ⟨by linarith [h3 i], h4 i⟩, ⟨b, ?_⟩, fun _ => ⟨h3, ⟨a, ?_⟩, b, hb1⟩⟩
    · show |(F b - mn) / mx| = 1
      rw [hb1, abs_one]
    · show (F a - mn) / mx = 0
      rw [hmn, ha, sub_self, zero_div]
  | false =>
    rw [hp] at h
    simp only [Bool.false_eq_true, if_false] at h
    split_ifs at h with h0
    simp only [Option.some.injEq] at h
    subst h
    have hpos : 0 < ‖F‖ := lt_of_le_of_ne (norm_nonneg _) (Ne.symm h0)
    have habs : ∀ i, |F i / ‖F‖| = |F i| / ‖F‖ := fun i => by rw [abs_div, abs_of_pos hpos]
    refine ⟨fun i => ?_, ?_, fun h => by simp at h⟩
    · rw [habs, div_le_one hpos]
      exact norm_le_pi_norm F i
    · obtain ⟨i, hi⟩ : ∃ i, ‖F‖ ≤ |F i| := by
        by_contra hc
        push Not at hc
        exact lt_irrefl _ ((pi_norm_lt_iff hpos).2 hc)
      refine ⟨i, ?_⟩
      rw [habs, div_eq_one_iff_eq h0]
      exact le_antisymm (norm_le_pi_norm F i) hi

/-- C97 (normalisation): whenever `find_mode` of a model with `normalize_gp` stores values (for any labels), they lie
in [-1, 1] and one is 1 or -1; with `normalize_positive` they lie in [0, 1] and both ends occur. -/
theorem C97_normalized (o : ModeOpts) (ho : o.normalizeGp = true) (P : ProbitSet) (y : TrainLabels (n + 1))
    {K : Matrix (Fin (n + 1)) (Fin (n + 1)) ℝ} (hK : K.PosDef)
    {invert : Matrix (Fin (n + 1)) (Fin (n + 1)) ℝ → Option (Matrix (Fin (n + 1)) (Fin (n + 1)) ℝ)}
    (F0 F' : Fin (n + 1) → ℝ) (k : Nat) (D : Option (Derivs (n + 1)))
    (h : findMode o P y K invert F0 = .ok ⟨some F', k, D⟩) :
    (∀ i, |F' i| ≤ 1) ∧ (∃ i, |F' i| = 1) ∧
      (o.normalizePositive = true → (∀ i, 0 ≤ F' i) ∧ (∃ i, F' i = 0) ∧ ∃ i, F' i = 1) := by
  obtain ⟨F, F1, -, hn, -⟩ := fit_last_step hK h
  exact normalized ho hn

/-- C97 is violated with `normalize_gp`: if all prior variances are below `1 / (2 m log 2)` for `m` pairs, the stored
values are not the posterior mode, whatever the labels. -/
theorem C97_normalized_false (o : ModeOpts) (ho : o.normalizeGp = true) (P : ProbitSet) (y : List (IPair (n + 1)))
    {K : Matrix (Fin (n + 1)) (Fin (n + 1)) ℝ} (hK : K.PosDef) (hv : ∀ i, K i i * (2 * y.length * Real.log 2) < 1)
    {invert : Matrix (Fin (n + 1)) (Fin (n + 1)) ℝ → Option (Matrix (Fin (n + 1)) (Fin (n + 1)) ℝ)}
    (F0 F' : Fin (n + 1) → ℝ) (k : Nat) (D : Option (Derivs (n + 1)))
    (h : findMode o P (onlyPairs y) K invert F0 = .ok ⟨some F', k, D⟩) : ¬ IsMode P.sigma y K F' := by
  intro hm
  obtain ⟨-, ⟨i, hi⟩, -⟩ := C97_normalized o ho P _ hK F0 F' k D h
  obtain ⟨m, -, hu, h2⟩ := C97_mode_unique P.sigma y hK
  rw [← hu F' hm] at h2
  have hent := entry_sq_le hK F' i
  have hKi : 0 < K i i := hK.diag_pos
  have h1 : F' i ^ 2 = 1 := by rw [← sq_abs, hi, one_pow]
  have h3 := mul_le_mul_of_nonneg_left h2 hKi.le
  linarith [hv i]

/-- C97, a single training point with `normalize_positive`: its value is shifted to 0 and divided by 0, so the first
update makes the fit undefined (for every label kind that gives an update). -/
theorem C97_one_point_false (o : ModeOpts) (ho : o.normalizeGp = true) (hp : o.normalizePositive = true)
    (P : ProbitSet) (y : List (IPair 1)) {K : Matrix (Fin 1) (Fin 1) ℝ} (hK : K.PosDef)
    (invert : Matrix (Fin 1) (Fin 1) ℝ → Option (Matrix (Fin 1) (Fin 1) ℝ)) (F0 : Fin 1 → ℝ) :
    findMode o P (onlyPairs y) K invert F0 = .ok ⟨none, 1, none⟩ := by
  classical
  have hgo : (open Classical in decide K.PosDef) = true := decide_eq_true hK
  have hn : ∀ F : Fin (0 + 1) → ℝ, normalizeIterate o F = none := by
    intro F
    simp [normalizeIterate, ho, hp]
  obtain ⟨d, -, hu⟩ := update_eq P y K invert F0
  have hstep : findModeStep (n := 0) o P (onlyPairs y) K invert (some F0) = .ok (none, false) := by
    simp only [findModeStep, hu, Except.map, Option.bind_some, hn]
  unfold findMode
  rw [hgo]
  simp only [findModeLoop, if_true, hstep]
  by_cases hc : 0 + 1 > o.maxloops
  · simp [hc, bind, Except.bind]
  · rw [if_neg hc]
    simp [bind, Except.bind]

/-- A fit that converges: two contradicting comparisons, started at the mode. -/
example (P : ProbitSet) (invert : Matrix (Fin 2) (Fin 2) ℝ → Option (Matrix (Fin 2) (Fin 2) ℝ)) :
    ∃ D, findMode (n := 1) {} P (onlyPairs [⟨1, 0, 1⟩, ⟨-1, 0, 1⟩]) 1 invert 0 = .ok ⟨some 0, 1, D⟩ := by
  classical
  have hgo : (open Classical in decide (1 : Matrix (Fin 2) (Fin 2) ℝ).PosDef) = true := decide_eq_true PosDef.one
  have hg : prefDerv P.sigma [⟨1, 0, 1⟩, ⟨-1, 0, 1⟩] (0 : Fin 2 → ℝ) = 0 := by
    funext i
    fin_cases i <;> simp [prefDerv, zk, addUpVec, Function.update]
  obtain ⟨d, hd, hu⟩ := update_eq P [⟨1, 0, 1⟩, ⟨-1, 0, 1⟩] 1 invert (0 : Fin 2 → ℝ)
  rw [hg, mulVec_zero, sub_zero] at hd
  have hd0 : d = 0 := by
    rw [hd]
    unfold descentDir
    split <;> simp
  rw [hd0, smul_zero, sub_zero] at hu
  have hstep : findModeStep (n := 1) {} P (onlyPairs [⟨1, 0, 1⟩, ⟨-1, 0, 1⟩]) 1 invert (some 0) =
      .ok (some 0, false) := by
    simp only [findModeStep, hu, Except.map, Option.bind_some, normalizeIterate, Bool.false_eq_true, if_false, sub_self,
      norm_zero]
    norm_num
  have hder : gpDerivatives P (onlyPairs [⟨1, 0, 1⟩, ⟨-1, 0, 1⟩]) (0 : Fin 2 → ℝ) =
      .ok (some (prefDerivatives P.sigma [⟨1, 0, 1⟩, ⟨-1, 0, 1⟩] 0)) := by
    simp [gpDerivatives, onlyPairs, ordPart, pairPart, absPart, Except.map, prefDerivatives]
  refine ⟨some (prefDerivatives P.sigma [⟨1, 0, 1⟩, ⟨-1, 0, 1⟩] 0), ?_⟩
  unfold findMode
  rw [hgo]
  simp [findModeLoop, hstep, bind, Except.bind, hder, Except.map]

/-- Nothing is clipped within the tolerance of that fit. -/
example (G : Fin 2 → ℝ) (h : ‖(0 : Fin 2 → ℝ) - G‖ ≤ 2 / 10000) :
    PairsInRange 1 [⟨1, 0, 1⟩, ⟨-1, 0, 1⟩] G := by
  have hG : ∀ i, |G i| ≤ 2 / 10000 := by
    intro i
    have := (norm_le_pi_norm (0 - G) i).trans h
    simpa using this
  have h1 : 1 ≤ Real.sqrt 2 := by rw [Real.one_le_sqrt]; norm_num
  have h0 := abs_le.1 (hG 0)
  have h2 := abs_le.1 (hG 1)
  intro p hp
  simp only [List.mem_cons, List.not_mem_nil, or_false] at hp
  rcases hp with rfl | rfl
  all_goals
    simp only [pairZ, mul_one]
    constructor
    · rw [lt_div_iff₀ (by positivity)]
      push_cast
      nlinarith
    · rw [div_lt_iff₀ (by positivity)]
      push_cast
      nlinarith

/-- Data to which `C97_converges` and `C97_unclipped` apply: two points, one comparison, start at 0; the cost is
`log 2`. -/
example : pairSignal 1 [⟨1, 0, 1⟩] (1 : Matrix (Fin 2) (Fin 2) ℝ) = 1 ∧
    modeCost 1 [⟨1, 0, 1⟩] (1 : Matrix (Fin 2) (Fin 2) ℝ) 0 = Real.log 2 ∧ (1 : ℝ) * Real.log 2 ≤ 7 := by
  have := Real.log_two_lt_d9
  refine ⟨by norm_num [pairSignal], ?_, by linarith⟩
  simp [modeCost, pairLogLik, pairZ, Phi_zero]

/-- A matrix without a Cholesky factor. -/
example : ¬ (!![1, 1; 1, 1] : Matrix (Fin 2) (Fin 2) ℝ).PosDef := by
  intro h
  have := h.det_pos
  simp [Matrix.det_fin_two] at this

/-- Prior variances to which `C97_normalized_false` applies. -/
example (i : Fin 2) : ((1 / 4 : ℝ) • (1 : Matrix (Fin 2) (Fin 2) ℝ)) i i *
    (2 * ([⟨1, 0, 1⟩] : List (IPair 2)).length * Real.log 2) < 1 := by
  have := Real.log_two_lt_d9
  simp
  linarith

end Lop.Props
