import Verif.Proofs.ModeLearned

/-! # C110: what a fitted `PreferenceGP` has learned from comparisons

Everything is about the posterior mode (`IsMode`), which exists and is unique (`C97_mode_unique`) and which
`find_mode` stores up to a multiple of its tolerance (`C97_converged`, used in `C110_stored_…`). -/

namespace Lop.Props

open Lop.Spec Matrix

variable {n t d : Nat}

/-- C110: the mode, outright. At every training point its value is the sum over all comparisons of the prior
covariance with the winner minus that with the loser, each with a positive weight; and nothing else has this
property. -/
theorem C110_representer {sigma : ℝ} (hs : 0 < sigma) (y : List (IPair n)) {K : Matrix (Fin n) (Fin n) ℝ}
    (hK : K.PosDef) (m : Fin n → ℝ) :
    (IsMode sigma y K m ↔
      ∀ i, m i = (y.map fun p => pairPull sigma m p * p.dk * (K i p.v - K i p.u)).sum) ∧
    ∀ p ∈ y, 0 < pairPull sigma m p := by
  refine ⟨?_, fun p _ => pairPull_pos hs m p⟩
  rw [isMode_iff_fixed hK, funext_iff]
  refine forall_congr' fun i => ?_
  have := dot_pairGradV sigma y m (K i)
  rw [show (K *ᵥ pairGradV sigma y m) i = K i ⬝ᵥ pairGradV sigma y m from rfl, this]

/-- C110, predictions: the mean which `predict` returns for a point (with the mode stored) is the same sum with the
covariances between that point and the training points. -/
theorem C110_predict {sigma : ℝ} (y : List (IPair t)) {K W : Matrix (Fin t) (Fin t) ℝ} {m : Fin t → ℝ}
    (hm : IsMode sigma y K m) (cov : CovFn d) (Y : Fin t → Pt d)
    {invert : Matrix (Fin t) (Fin t) ℝ → Option (Matrix (Fin t) (Fin t) ℝ)} {X : Fin n → Pt d} {r : GPPred n}
    (h : prefGpPredict cov Y K W m invert X = .ok r) :
    ∃ Ks, cov _ _ X Y = .ok Ks ∧
      ∀ i, r.mu i = (y.map fun p => pairPull sigma m p * p.dk * (Ks i p.v - Ks i p.u)).sum := by
  obtain ⟨Ks, Kss, tmp, hKs, -, hK, -, -, hmu, -⟩ := prefGpPredict_inv h
  have hu : IsUnit K.det := (Matrix.isUnit_iff_isUnit_det _).1 hK.isUnit
  refine ⟨Ks, hKs, fun i => ?_⟩
  have hfix := (isMode_iff_fixed hK).1 hm
  have e : K⁻¹ *ᵥ m = pairGradV sigma y m := by
    conv_lhs => rw [hfix]
    rw [mulVec_mulVec, nonsing_inv_mul _ hu, one_mulVec]
  rw [hmu, e, ← dot_pairGradV]
  rfl

/-- Whatever has been learned agrees with at least one comparison: a mode that is not zero everywhere agrees with one
of the comparisons. -/
theorem C110_learned {sigma : ℝ} (hs : 0 < sigma) (y : List (IPair n)) {K : Matrix (Fin n) (Fin n) ℝ}
    (hK : K.PosDef) {m : Fin n → ℝ} (hm : IsMode sigma y K m) (hm0 : m ≠ 0) : ∃ p ∈ y, Agrees m p := by
  by_contra hc
  push Not at hc
  have hfix := (isMode_iff_fixed hK).1 hm
  have hsum : m ⬝ᵥ pairGradV sigma y m ≤ 0 := by
    rw [dot_pairGradV]
    have := sum_map_nonneg (l := y) (f := fun p => -(pairPull sigma m p * p.dk * (m p.v - m p.u))) (by
      intro p hp
      have h1 := hc p hp
      have h2 := pairPull_pos hs m p
      unfold Agrees at h1
      push Not at h1
      have := mul_nonneg h2.le (neg_nonneg.2 h1)
      linarith)
    rw [← sum_map_neg] at this
    linarith
  have hg0 : pairGradV sigma y m = 0 := by
    by_contra hne
    have := hK.dotProduct_mulVec_pos hne
    simp only [star_trivial] at this
    rw [← hfix, dotProduct_comm] at this
    linarith
  exact hm0 (by rw [hfix, hg0, mulVec_zero])

/-- C110: nothing is learned exactly when every point wins as often as it loses. -/
theorem C110_nothing {sigma : ℝ} (hs : 0 < sigma) (y : List (IPair n)) {K : Matrix (Fin n) (Fin n) ℝ}
    (hK : K.PosDef) : IsMode sigma y K 0 ↔
      ∀ i, (y.map fun p => (p.dk : ℝ) * ((if i = p.v then 1 else 0) - (if i = p.u then 1 else 0))).sum = 0 := by
  have hu : IsUnit K.det := (Matrix.isUnit_iff_isUnit_det _).1 hK.isUnit
  have hc : 0 < phi 0 / Phi 0 / (Real.sqrt 2 * sigma) := by
    have := phi_pos 0
    have := Phi_pos 0
    positivity
  have hpull : ∀ p : IPair n, pairPull sigma 0 p = phi 0 / Phi 0 / (Real.sqrt 2 * sigma) := by
    intro p
    simp [pairPull, pairZ]
  have hgrad : ∀ i, pairGradV sigma y 0 i = phi 0 / Phi 0 / (Real.sqrt 2 * sigma) *
      (y.map fun p => (p.dk : ℝ) * ((if i = p.v then 1 else 0) - (if i = p.u then 1 else 0))).sum := by
    intro i
    rw [← List.sum_map_mul_left]
    unfold pairGradV
    congr 1
    refine List.map_congr_left fun p _ => ?_
    rw [hpull, mul_assoc]
  rw [isMode_iff_fixed hK]
  constructor
  · intro h i
    have h0 : pairGradV sigma y 0 = 0 := by
      have := congrArg (fun x => K⁻¹ *ᵥ x) h
      simp only [mulVec_zero, mulVec_mulVec, nonsing_inv_mul _ hu, one_mulVec] at this
      exact this.symm
    have := congrFun h0 i
    rw [hgrad, Pi.zero_apply] at this
    exact (mul_eq_zero.1 this).resolve_left hc.ne'
  · intro h
    have : pairGradV sigma y 0 = 0 := by
      funext i
      rw [hgrad, h i, mul_zero]; rfl
    rw [this, mulVec_zero]

/-- C110: comparisons which some utility explains, at least one of them strict, teach something: the mode is not zero,
and it agrees with one of them. -/
theorem C110_consistent {sigma : ℝ} (hs : 0 < sigma) (y : List (IPair n)) {K : Matrix (Fin n) (Fin n) ℝ}
    (hK : K.PosDef) {m : Fin n → ℝ} (hm : IsMode sigma y K m) (G : Fin n → ℝ)
    (hG : ∀ p ∈ y, Strict p → Agrees G p) (hy : ∃ p ∈ y, Strict p) : m ≠ 0 ∧ ∃ p ∈ y, Agrees m p := by
  have h0 : m ≠ 0 := by
    rintro rfl
    have hbal := (C110_nothing hs y hK).1 hm
    have hu : IsUnit K.det := (Matrix.isUnit_iff_isUnit_det _).1 hK.isUnit
    have hg : pairGradV sigma y 0 = 0 := by
      have := congrArg (fun x => K⁻¹ *ᵥ x) ((isMode_iff_fixed hK).1 hm)
      simp only [mulVec_zero, mulVec_mulVec, nonsing_inv_mul _ hu, one_mulVec] at this
      exact this.symm
    have e := dot_pairGradV sigma y 0 G
    rw [hg, dotProduct_zero] at e
    have hterm : ∀ p ∈ y, 0 ≤ pairPull sigma 0 p * p.dk * (G p.v - G p.u) := by
      intro p hp
      by_cases hst : Strict p
      · have := mul_pos (pairPull_pos hs 0 p) (hG p hp hst)
        linarith
      · have : (p.dk : ℝ) * (G p.v - G p.u) = 0 := by
          unfold Strict at hst
          by_cases h1 : p.dk = 0
          · simp [h1]
          · have : p.u = p.v := by
              by_contra h2
              exact hst ⟨h1, h2⟩
            simp [this]
        rw [mul_assoc, this, mul_zero]
    obtain ⟨p, hp, hst⟩ := hy
    have h1 := List.single_le_sum (l := y.map fun p => pairPull sigma 0 p * p.dk * (G p.v - G p.u)) (by
      intro x hx
      obtain ⟨q, hq, rfl⟩ := List.mem_map.1 hx
      exact hterm q hq) _ (List.mem_map.2 ⟨p, hp, rfl⟩)
    have h2 := mul_pos (pairPull_pos hs 0 p) (hG p hp hst)
    linarith
  exact ⟨h0, C110_learned hs y hK hm h0⟩

/-- C110: one strict comparison is learned. -/
theorem C110_single {sigma : ℝ} (hs : 0 < sigma) (p : IPair n) (hp : Strict p) {K : Matrix (Fin n) (Fin n) ℝ}
    (hK : K.PosDef) {m : Fin n → ℝ} (hm : IsMode sigma [p] K m) : Agrees m p := by
  have h := dot_pairGradV sigma [p] m (K p.v)
  have h' := dot_pairGradV sigma [p] m (K p.u)
  have hfix := (isMode_iff_fixed hK).1 hm
  have ev : m p.v = K p.v ⬝ᵥ pairGradV sigma [p] m := congrFun hfix p.v
  have eu : m p.u = K p.u ⬝ᵥ pairGradV sigma [p] m := congrFun hfix p.u
  simp only [List.map_cons, List.map_nil, List.sum_cons, List.sum_nil, add_zero] at h h'
  have hd : (p.dk : ℝ) ≠ 0 := by exact_mod_cast hp.1
  have e : (p.dk : ℝ) * (m p.v - m p.u) = pairPull sigma m p * (p.dk : ℝ) ^ 2 *
      (K p.v p.v - K p.v p.u - (K p.u p.v - K p.u p.u)) := by
    rw [ev, eu, h, h']
    ring
  unfold Agrees
  rw [e]
  have := pairPull_pos hs m p
  have := var_diff_pos hK hp.2
  positivity

/-- C110: a further comparison pulls its two points apart in its direction, whatever else is known (also when it
contradicts everything else): the winner's lead over the loser never becomes smaller, and it becomes larger if the
comparison is strict. -/
theorem C110_more {sigma : ℝ} (hs : 0 < sigma) (y : List (IPair n)) (p : IPair n) {K : Matrix (Fin n) (Fin n) ℝ}
    (hK : K.PosDef) {m m' : Fin n → ℝ} (hm : IsMode sigma y K m) {y' : List (IPair n)} (hy' : y'.Perm (p :: y))
    (hm' : IsMode sigma y' K m') :
    (p.dk : ℝ) * (m p.v - m p.u) ≤ p.dk * (m' p.v - m' p.u) ∧
      (Strict p → (p.dk : ℝ) * (m p.v - m p.u) < p.dk * (m' p.v - m' p.u)) := by
  have hc : 0 < Real.sqrt 2 * sigma := by positivity
  have hll : ∀ G, pairLogLik sigma y' G = Real.log (Phi (pairZ sigma G p)) + pairLogLik sigma y G := by
    intro G
    unfold pairLogLik
    rw [(hy'.map _).sum_eq]
    simp
  have h1 := (isMode_iff hK).1 hm m'
  have h2 := (isMode_iff hK).1 hm' m
  rw [hll, hll] at h2
  have hlog : Real.log (Phi (pairZ sigma m p)) ≤ Real.log (Phi (pairZ sigma m' p)) := by linarith
  have hz : pairZ sigma m p ≤ pairZ sigma m' p := by
    have := (Real.log_le_log_iff (Phi_pos _) (Phi_pos _)).1 hlog
    exact Phi_strictMono.le_iff_le.1 this
  have hle : (p.dk : ℝ) * (m p.v - m p.u) ≤ p.dk * (m' p.v - m' p.u) := by
    unfold pairZ at hz
    exact (div_le_div_iff_of_pos_right hc).1 hz
  refine ⟨hle, fun hst => lt_of_le_of_ne hle fun heq => ?_⟩
  have hzeq : pairZ sigma m p = pairZ sigma m' p := by unfold pairZ; rw [heq]
  rw [hzeq] at h2
  have hmode : IsMode sigma y K m' := by
    rw [isMode_iff hK]
    intro G
    have := (isMode_iff hK).1 hm G
    linarith
  have hmm := isMode_unique hK hm hmode
  subst hmm
  have f1 := (isMode_iff_fixed hK).1 hm
  have f2 := (isMode_iff_fixed hK).1 hm'
  have hu : IsUnit K.det := (Matrix.isUnit_iff_isUnit_det _).1 hK.isUnit
  have hgg : pairGradV sigma y m = pairGradV sigma y' m := by
    have := congrArg (fun x => K⁻¹ *ᵥ x) (f1.symm.trans f2)
    simpa only [mulVec_mulVec, nonsing_inv_mul _ hu, one_mulVec] using this
  have hv := congrFun hgg p.v
  have e : pairGradV sigma y' m p.v = pairPull sigma m p * p.dk + pairGradV sigma y m p.v := by
    unfold pairGradV
    rw [(hy'.map _).sum_eq]
    simp [Ne.symm hst.2]
  rw [e] at hv
  have hd : (p.dk : ℝ) ≠ 0 := by exact_mod_cast hst.1
  have : pairPull sigma m p * p.dk = 0 := by linarith
  exact (mul_ne_zero (pairPull_pos hs m p).ne' hd) this

/-- C110: the order in which comparisons arrived does not matter. -/
theorem C110_order (sigma : ℝ) {y y' : List (IPair n)} (h : y.Perm y') (K : Matrix (Fin n) (Fin n) ℝ)
    (m : Fin n → ℝ) : IsMode sigma y K m ↔ IsMode sigma y' K m := by
  have : pairLogLik sigma y = pairLogLik sigma y' := by
    funext F
    exact (h.map _).sum_eq
  unfold IsMode
  rw [this]

/-- C110: with all answers reversed the values change sign. -/
theorem C110_reverse (sigma : ℝ) (y : List (IPair n)) {K : Matrix (Fin n) (Fin n) ℝ} (hK : K.PosDef)
    (m : Fin n → ℝ) : IsMode sigma (y.map opposite) K (-m) ↔ IsMode sigma y K m := by
  have hz : ∀ F p, pairZ sigma F (opposite p : IPair n) = pairZ sigma (-F) p := by
    intro F p
    simp only [pairZ, opposite, Pi.neg_apply]
    push_cast
    ring
  have hl : ∀ F, pairLogLik sigma (y.map opposite) F = pairLogLik sigma y (-F) := by
    intro F
    simp only [pairLogLik, List.map_map, Function.comp_def, hz]
  have hq : ∀ F : Fin n → ℝ, (-F) ⬝ᵥ (K⁻¹ *ᵥ (-F)) = F ⬝ᵥ (K⁻¹ *ᵥ F) := by
    intro F
    rw [mulVec_neg, neg_dotProduct, dotProduct_neg, neg_neg]
  rw [isMode_iff hK, isMode_iff hK]
  constructor
  · intro h G
    have := h (-G)
    rwa [hl, hl, neg_neg, neg_neg, hq, hq] at this
  · intro h G
    have := h (-G)
    rw [hq] at this
    rw [hl, hl, neg_neg, hq]
    exact this

/-- C110: a larger prior scale together with a proportionally larger noise level only changes the unit of the values. -/
theorem C110_scale {sigma c : ℝ} (hs : 0 < sigma) (hc : 0 < c) (y : List (IPair n)) {K : Matrix (Fin n) (Fin n) ℝ}
    (hK : K.PosDef) {m : Fin n → ℝ} (hm : IsMode sigma y K m) : IsMode (c * sigma) y (c ^ 2 • K) (c • m) := by
  have hK' : (c ^ 2 • K).PosDef := hK.smul (by positivity)
  rw [(C110_representer (mul_pos hc hs) y hK' _).1]
  have h := (C110_representer hs y hK m).1.1 hm
  intro i
  have hz : ∀ p, pairZ (c * sigma) (c • m) p = pairZ sigma m p := by
    intro p
    simp only [pairZ, Pi.smul_apply, smul_eq_mul]
    have : Real.sqrt 2 ≠ 0 := by positivity
    field_simp
  have hp : ∀ p, c ^ 2 * pairPull (c * sigma) (c • m) p = c * pairPull sigma m p := by
    intro p
    unfold pairPull
    rw [hz]
    have : Real.sqrt 2 ≠ 0 := by positivity
    have := (Phi_pos (pairZ sigma m p)).ne'
    field_simp
  rw [Pi.smul_apply, smul_eq_mul, h i, ← List.sum_map_mul_left]
  congr 1
  refine List.map_congr_left fun p _ => ?_
  simp only [Matrix.smul_apply, smul_eq_mul]
  linear_combination (-(p.dk : ℝ) * (K i p.v - K i p.u)) * hp p

/-- C110: training points that were never compared have no influence. The values at the compared points are the mode
of the model trained on these points only. -/
theorem C110_uncompared {sigma : ℝ} (hs : 0 < sigma) (e : Fin t → Fin n) (he : Function.Injective e)
    (y : List (IPair t)) {K : Matrix (Fin n) (Fin n) ℝ} (hK : K.PosDef) {m : Fin n → ℝ}
    (hm : IsMode sigma (y.map (renamed e)) K m) : IsMode sigma y (K.submatrix e e) (m ∘ e) := by
  have hK' : (K.submatrix e e).PosDef := hK.submatrix he
  rw [(C110_representer hs y hK' _).1]
  intro i
  have := (C110_representer hs _ hK m).1.1 hm (e i)
  rw [Function.comp_apply, this, List.map_map]
  rfl

/-- C110: nor do they have an influence on the predictions (kernels without noise). -/
theorem C110_uncompared_predict {sigma : ℝ} (hs : 0 < sigma) {t' : Nat} (e : Fin t → Fin t')
    (he : Function.Injective e) (y : List (IPair t)) (k : KExpr ℝ (Pt d)) (hq : AllLeaves NoNoise k)
    (Y : Fin t' → Pt d) {K W : Matrix (Fin t') (Fin t') ℝ} {W' K' : Matrix (Fin t) (Fin t) ℝ}
    (hKY : k.cov Y Y = .ok K) (hKY' : k.cov (Y ∘ e) (Y ∘ e) = .ok K') {m : Fin t' → ℝ} {m' : Fin t → ℝ}
    (hm : IsMode sigma (y.map (renamed e)) K m) (hm' : IsMode sigma y K' m')
    {invert : Matrix (Fin t') (Fin t') ℝ → Option (Matrix (Fin t') (Fin t') ℝ)}
    {invert' : Matrix (Fin t) (Fin t) ℝ → Option (Matrix (Fin t) (Fin t) ℝ)} {X : Fin n → Pt d} {r r' : GPPred n}
    (h : prefGpPredict (kcov k) Y K W m invert X = .ok r)
    (h' : prefGpPredict (kcov k) (Y ∘ e) K' W' m' invert' X = .ok r') : r.mu = r'.mu := by
  obtain ⟨g, hg⟩ := cov_pointwise k hq
  obtain ⟨-, -, -, -, -, hK, -⟩ := prefGpPredict_inv h
  obtain ⟨Ks, h1, h2⟩ := C110_predict _ hm _ _ h
  obtain ⟨Ks', h1', h2'⟩ := C110_predict _ hm' _ _ h'
  have eK : K' = K.submatrix e e := by
    funext i j
    rw [hg _ _ _ hKY', submatrix_apply, hg _ _ _ hKY]
    rfl
  have em : m' = m ∘ e := by
    have := C110_uncompared hs e he y hK hm
    rw [← eK] at this
    exact isMode_unique (eK ▸ hK.submatrix he) hm' this
  funext i
  rw [h2, h2', List.map_map, em]
  congr 1
  refine List.map_congr_left fun p _ => ?_
  have e1 : ∀ j, Ks' i j = Ks i (e j) := fun j => by
    rw [hg _ _ _ h1', hg _ _ _ h1]
    rfl
  simp only [Function.comp_apply, e1]
  rfl

/-- Selection matrix of a renaming. -/
private def selM {t' : Nat} (e : Fin t → Fin t') : Matrix (Fin t') (Fin t) ℝ := fun i j => if i = e j then 1 else 0

private lemma mul_selM {t' : Nat} {a : Type*} (e : Fin t → Fin t') (A : Matrix a (Fin t') ℝ) (i : a) (j : Fin t) :
    (A * selM e) i j = A i (e j) := by
  simp [mul_apply, selM]

private lemma selM_mul_transpose {t' : Nat} (e : Fin t → Fin t') (sigma : ℝ) (y : List (IPair t)) (m : Fin t' → ℝ) :
    prefW sigma (y.map (renamed e)) m = selM e * prefW sigma y (m ∘ e) * (selM e)ᵀ := by
  have hinc : ∀ (p : IPair t) (i : Fin t'), inc (renamed e p) i = ∑ a, selM e i a * inc p a := by
    intro p i
    simp only [inc, renamed, selM, mul_sub, Finset.sum_sub_distrib]
    congr 1
    · rw [Finset.sum_eq_single p.v] <;> simp +contextual [eq_comm]
    · rw [Finset.sum_eq_single p.u] <;> simp +contextual [eq_comm]
  have key : ∀ (w : IPair t → ℝ) (i j : Fin t'),
      (y.map fun p => w p * (inc (renamed e p) i * inc (renamed e p) j)).sum =
        ∑ b, (∑ a, selM e i a * (y.map fun p => w p * (inc p a * inc p b)).sum) * selM e j b := by
    intro w i j
    induction y with
    | nil => simp
    | cons p y ih =>
      simp only [List.map_cons, List.sum_cons, ih]
      generalize w p = c
      simp only [mul_add, add_mul, Finset.sum_add_distrib]
      congr 1
      rw [hinc, hinc, Finset.sum_mul_sum, Finset.sum_comm, Finset.mul_sum]
      refine Finset.sum_congr rfl fun a _ => ?_
      rw [Finset.mul_sum, Finset.sum_mul]
      refine Finset.sum_congr rfl fun b _ => ?_
      ring
  ext i j
  rw [prefW_apply, List.map_map]
  simp only [mul_apply, transpose_apply, prefW_apply]
  rw [← key]
  rfl

/-- C110: nor on the predicted covariances and variances (`W` as `find_mode` stores it, nothing clipped). -/
theorem C110_uncompared_cov {sigma : ℝ} (hs : 0 < sigma) {t' : Nat} (e : Fin t → Fin t')
    (he : Function.Injective e) (y : List (IPair t)) (k : KExpr ℝ (Pt d)) (hq : AllLeaves NoNoise k)
    (Y : Fin t' → Pt d) {K : Matrix (Fin t') (Fin t') ℝ} {K' : Matrix (Fin t) (Fin t) ℝ}
    (hKY : k.cov Y Y = .ok K) (hKY' : k.cov (Y ∘ e) (Y ∘ e) = .ok K') {m : Fin t' → ℝ} {m' : Fin t → ℝ}
    (hm : IsMode sigma (y.map (renamed e)) K m) (hm' : IsMode sigma y K' m')
    (hr : PairsInRange sigma (y.map (renamed e)) m)
    {invert : Matrix (Fin t') (Fin t') ℝ → Option (Matrix (Fin t') (Fin t') ℝ)} (hinv : InvertsInvertible invert)
    {invert' : Matrix (Fin t) (Fin t) ℝ → Option (Matrix (Fin t) (Fin t) ℝ)} (hinv' : InvertsInvertible invert')
    {X : Fin n → Pt d} {r r' : GPPred n}
    (h : prefGpPredict (kcov k) Y K (prefW sigma (y.map (renamed e)) m) m invert X = .ok r)
    (h' : prefGpPredict (kcov k) (Y ∘ e) K' (prefW sigma y m') m' invert' X = .ok r') :
    r.cov = r'.cov ∧ r.sigma = r'.sigma := by
  obtain ⟨g, hg⟩ := cov_pointwise k hq
  obtain ⟨Ks, Kss, tmp, h1, h2, hK, hi, hcov, -, hsig⟩ := prefGpPredict_inv h
  obtain ⟨Ks', Kss', tmp', h1', h2', hK', hi', hcov', -, hsig'⟩ := prefGpPredict_inv h'
  have eK : K' = K.submatrix e e := by
    funext i j
    rw [hg _ _ _ hKY', submatrix_apply, hg _ _ _ hKY]
    rfl
  have em : m' = m ∘ e := by
    have := C110_uncompared hs e he y hK hm
    rw [← eK] at this
    exact isMode_unique hK' hm' this
  have eKs : Ks' = Ks * selM e := by
    ext i j
    rw [mul_selM, hg _ _ _ h1', hg _ _ _ h1]
    rfl
  have eK2 : K' = (selM e)ᵀ * K * selM e := by
    ext i j
    rw [eK, mul_selM, ← transpose_apply ((selM e)ᵀ * K), transpose_mul, transpose_transpose, mul_selM]
    rfl
  obtain rfl : Kss = Kss' := by
    have h2 : k.cov X X = .ok Kss := h2
    have h2' : k.cov X X = .ok Kss' := h2'
    rw [h2] at h2'
    exact Except.ok.inj h2'
  have hW := selM_mul_transpose e sigma y m
  rw [← em] at hW
  have hpsd := (C37_W_psd sigma hs.ne' _ m hr).1
  have hr' : PairsInRange sigma y m' := by
    intro p hp
    have := hr (renamed e p) (List.mem_map_of_mem hp)
    rw [em]
    exact this
  have hpsd' := (C37_W_psd sigma hs.ne' y m' hr').1
  have hu := (laplace_reduction hK (hK.inv.add_posSemidef hpsd)).1
  have hu' := (laplace_reduction hK' (hK'.inv.add_posSemidef hpsd')).1
  rw [hinv _ hu] at hi
  rw [hinv' _ hu'] at hi'
  obtain rfl := Option.some.inj hi
  obtain rfl := Option.some.inj hi'
  rw [hW] at hu hcov
  set W' := prefW sigma y m' with hW'
  set E := selM e with hE
  have hpush : (1 + E * W' * Eᵀ * K)⁻¹ * E = E * (1 + W' * K')⁻¹ := by
    have a : (1 + E * W' * Eᵀ * K) * E = E * (1 + W' * K') := by
      rw [eK2]
      simp only [Matrix.add_mul, Matrix.mul_add, Matrix.one_mul, Matrix.mul_one, Matrix.mul_assoc]
    calc (1 + E * W' * Eᵀ * K)⁻¹ * E = (1 + E * W' * Eᵀ * K)⁻¹ * (E * (1 + W' * K')) * (1 + W' * K')⁻¹ := by
          have : E * (1 + W' * K') * (1 + W' * K')⁻¹ = E := by
            rw [Matrix.mul_assoc, mul_nonsing_inv _ hu', Matrix.mul_one]
          rw [Matrix.mul_assoc (1 + E * W' * Eᵀ * K)⁻¹, this]
      _ = E * (1 + W' * K')⁻¹ := by
          rw [← a, ← Matrix.mul_assoc, nonsing_inv_mul _ hu, Matrix.one_mul]
  have hc : r.cov = r'.cov := by
    rw [hcov, hcov', eKs, transpose_mul]
    congr 1
    calc Ks * (1 + E * W' * Eᵀ * K)⁻¹ * (E * W' * Eᵀ * Ksᵀ) =
          Ks * ((1 + E * W' * Eᵀ * K)⁻¹ * E) * (W' * (Eᵀ * Ksᵀ)) := by simp only [Matrix.mul_assoc]
      _ = _ := by rw [hpush]; simp only [Matrix.mul_assoc]
  refine ⟨hc, funext fun i => ?_⟩
  rw [hsig, hsig', hc]

/-- C110 for predictions of the stored model: after a converged fit the predicted means differ from those of the mode
by at most the errors of `C97_converged`, weighted with `|K(x, X) K⁻¹|`. -/
theorem C110_stored_predict (o : ModeOpts) (ho : o.normalizeGp = false) (P : ProbitSet) (hs : 0 < P.sigma)
    (y : List (IPair (t + 1))) {K W : Matrix (Fin (t + 1)) (Fin (t + 1)) ℝ} (hK : K.PosDef)
    {invert : Matrix (Fin (t + 1)) (Fin (t + 1)) ℝ → Option (Matrix (Fin (t + 1)) (Fin (t + 1)) ℝ)}
    (hinv : InvertsInvertible invert) (F0 F : Fin (t + 1) → ℝ) (k : Nat) (D : Option (Derivs (t + 1)))
    (h : findMode o P (onlyPairs y) K invert F0 = .ok ⟨some F, k, D⟩) (hk : k ≤ o.maxloops)
    (hr : ∀ G, ‖F - G‖ ≤ o.deltaF → PairsInRange P.sigma y G) {m : Fin (t + 1) → ℝ} (hm : IsMode P.sigma y K m)
    (cov : CovFn d) (Y : Fin (t + 1) → Pt d) {X : Fin n → Pt d} {r : GPPred n}
    (hp : prefGpPredict cov Y K W F invert X = .ok r) :
    ∃ Ks, cov _ _ X Y = .ok Ks ∧ ∀ i,
      |r.mu i - (y.map fun p => pairPull P.sigma m p * p.dk * (Ks i p.v - Ks i p.u)).sum| ≤
        o.deltaF * ∑ j, |(Ks * K⁻¹) i j| * modeErrorFactor P.sigma y K j := by
  obtain ⟨Ks, Kss, tmp, hKs, hKss, -, hi, -, hmu, -⟩ := prefGpPredict_inv hp
  have hu : IsUnit K.det := (Matrix.isUnit_iff_isUnit_det _).1 hK.isUnit
  refine ⟨Ks, hKs, fun i => ?_⟩
  have hfix := (isMode_iff_fixed hK).1 hm
  have e : K⁻¹ *ᵥ m = pairGradV P.sigma y m := by
    conv_lhs => rw [hfix]
    rw [mulVec_mulVec, nonsing_inv_mul _ hu, one_mulVec]
  have e2 : (y.map fun p => pairPull P.sigma m p * p.dk * (Ks i p.v - Ks i p.u)).sum = (Ks *ᵥ (K⁻¹ *ᵥ m)) i := by
    rw [e, ← dot_pairGradV]
    rfl
  have e3 : r.mu i - (Ks *ᵥ (K⁻¹ *ᵥ m)) i = ∑ j, (Ks * K⁻¹) i j * (F j - m j) := by
    rw [hmu, mulVec_mulVec, mulVec_mulVec]
    simp only [mulVec, dotProduct, mul_sub, Finset.sum_sub_distrib]
  rw [e2, e3, Finset.mul_sum]
  refine (Finset.abs_sum_le_sum_abs _ _).trans (Finset.sum_le_sum fun j _ => ?_)
  rw [abs_mul]
  have := C97_converged o ho P hs.ne' y hK hinv F0 F k D h hk hr m hm j
  nlinarith [abs_nonneg ((Ks * K⁻¹) i j)]

/-- C110: the size of what is learned. For `N` comparisons every value is at most `√(2 N log 2)` prior standard
deviations. -/
theorem C110_bounded (sigma : ℝ) (y : List (IPair n)) {K : Matrix (Fin n) (Fin n) ℝ} (hK : K.PosDef)
    {m : Fin n → ℝ} (hm : IsMode sigma y K m) (i : Fin n) : |m i| ≤ Real.sqrt (K i i * (2 * y.length * Real.log 2)) := by
  obtain ⟨q, -, hq, hb⟩ := C97_mode_unique sigma y hK
  rw [← hq m hm] at hb
  refine Real.abs_le_sqrt ((entry_sq_le hK m i).trans ?_)
  exact mul_le_mul_of_nonneg_left hb hK.diag_pos.le

/-- C110 for the stored values: two converged fits, the second with one more comparison (anywhere in the list). The
winner's lead over the loser becomes smaller by at most the errors of `C97_converged`. -/
theorem C110_stored_more (o : ModeOpts) (ho : o.normalizeGp = false) (P : ProbitSet) (hs : 0 < P.sigma)
    (y y' : List (IPair (n + 1))) (p : IPair (n + 1)) (hy' : y'.Perm (p :: y)) (hp : p.dk = 1 ∨ p.dk = -1)
    {K : Matrix (Fin (n + 1)) (Fin (n + 1)) ℝ} (hK : K.PosDef)
    {invert : Matrix (Fin (n + 1)) (Fin (n + 1)) ℝ → Option (Matrix (Fin (n + 1)) (Fin (n + 1)) ℝ)}
    (hinv : InvertsInvertible invert) (F0 F0' F F' : Fin (n + 1) → ℝ) (k k' : Nat) (D D' : Option (Derivs (n + 1)))
    (h : findMode o P (onlyPairs y) K invert F0 = .ok ⟨some F, k, D⟩) (hk : k ≤ o.maxloops)
    (hr : ∀ G, ‖F - G‖ ≤ o.deltaF → PairsInRange P.sigma y G)
    (h' : findMode o P (onlyPairs y') K invert F0' = .ok ⟨some F', k', D'⟩) (hk' : k' ≤ o.maxloops)
    (hr' : ∀ G, ‖F' - G‖ ≤ o.deltaF → PairsInRange P.sigma y' G) :
    (p.dk : ℝ) * (F p.v - F p.u) - (modeErrorFactor P.sigma y K p.u + modeErrorFactor P.sigma y K p.v +
      modeErrorFactor P.sigma y' K p.u + modeErrorFactor P.sigma y' K p.v) * o.deltaF ≤
      p.dk * (F' p.v - F' p.u) := by
  obtain ⟨m, hm, -⟩ := C97_mode_unique P.sigma y hK
  obtain ⟨m', hm', -⟩ := C97_mode_unique P.sigma y' hK
  have hc := C97_converged o ho P hs.ne' y hK hinv F0 F k D h hk hr m hm
  have hc' := C97_converged o ho P hs.ne' y' hK hinv F0' F' k' D' h' hk' hr' m' hm'
  have hmore := (C110_more hs y p hK hm hy' hm').1
  have a1 := abs_le.1 (hc p.u)
  have a2 := abs_le.1 (hc p.v)
  have a3 := abs_le.1 (hc' p.u)
  have a4 := abs_le.1 (hc' p.v)
  rcases hp with hp | hp <;> rw [hp] at hmore ⊢ <;> push_cast at hmore ⊢ <;> linarith [a1.1, a1.2, a2.1, a2.2, a3.1,
    a3.2, a4.1, a4.2]

/-- C110: how much one strict comparison teaches: with prior variance `V` of the difference of the two points, the
winner's lead is at least the smaller one of `√2 σ` and `V φ(1) / (√2 σ)`. -/
theorem C110_single_lead {sigma : ℝ} (hs : 0 < sigma) (p : IPair n) (huv : p.u ≠ p.v) (hp : p.dk = 1 ∨ p.dk = -1)
    {K : Matrix (Fin n) (Fin n) ℝ} (hK : K.PosDef) {m : Fin n → ℝ} (hm : IsMode sigma [p] K m) :
    min (Real.sqrt 2 * sigma) ((K p.u p.u + K p.v p.v - 2 * K p.u p.v) * phi 1 / (Real.sqrt 2 * sigma)) ≤
      p.dk * (m p.v - m p.u) := by
  have hc : 0 < Real.sqrt 2 * sigma := by positivity
  have hfix := (C110_representer hs _ hK m).1.1 hm
  simp only [List.map_cons, List.map_nil, List.sum_cons, List.sum_nil, add_zero] at hfix
  have hsym : K p.v p.u = K p.u p.v := congrFun (congrFun (posDef_transpose hK) p.u) p.v
  have hd : (p.dk : ℝ) * p.dk = 1 := by rcases hp with h | h <;> rw [h] <;> norm_num
  have hV := var_diff_pos hK huv
  set V := K p.u p.u + K p.v p.v - 2 * K p.u p.v with hVdef
  have hV' : 0 < V := by rw [hVdef]; linarith
  have hD : (p.dk : ℝ) * (m p.v - m p.u) = pairPull sigma m p * V := by
    rw [hfix p.v, hfix p.u, hsym]
    linear_combination (pairPull sigma m p * V) * hd
  by_contra hcon
  push Not at hcon
  obtain ⟨h1, h2⟩ := lt_min_iff.1 hcon
  have hz : pairZ sigma m p ≤ 1 := by
    unfold pairZ
    rw [div_le_one hc]
    exact h1.le
  have hr : phi 1 ≤ mratio (pairZ sigma m p) := by
    refine le_trans ?_ (mratio_antitone hz)
    unfold mratio
    rw [le_div_iff₀ (Phi_pos 1)]
    exact mul_le_of_le_one_right (phi_pos 1).le (Phi_lt_one 1).le
  have hpull : pairPull sigma m p = mratio (pairZ sigma m p) / (Real.sqrt 2 * sigma) := rfl
  rw [hD, hpull] at h2
  have : V * phi 1 / (Real.sqrt 2 * sigma) ≤ mratio (pairZ sigma m p) / (Real.sqrt 2 * sigma) * V := by
    rw [div_mul_eq_mul_div, mul_comm V]
    gcongr
  linarith

/-- C110 for the stored values: after a converged fit of one comparison the stored values agree with it, if the
tolerance is small against the lead of `C110_single_lead`. -/
theorem C110_stored_single (o : ModeOpts) (ho : o.normalizeGp = false) (P : ProbitSet) (hs : 0 < P.sigma)
    (p : IPair (n + 1)) (huv : p.u ≠ p.v) (hp : p.dk = 1 ∨ p.dk = -1)
    {K : Matrix (Fin (n + 1)) (Fin (n + 1)) ℝ} (hK : K.PosDef)
    {invert : Matrix (Fin (n + 1)) (Fin (n + 1)) ℝ → Option (Matrix (Fin (n + 1)) (Fin (n + 1)) ℝ)}
    (hinv : InvertsInvertible invert) (F0 F : Fin (n + 1) → ℝ) (k : Nat) (D : Option (Derivs (n + 1)))
    (h : findMode o P (onlyPairs [p]) K invert F0 = .ok ⟨some F, k, D⟩) (hk : k ≤ o.maxloops)
    (hr : ∀ G, ‖F - G‖ ≤ o.deltaF → PairsInRange P.sigma [p] G)
    (hsmall : (modeErrorFactor P.sigma [p] K p.u + modeErrorFactor P.sigma [p] K p.v) * o.deltaF <
      min (Real.sqrt 2 * P.sigma) ((K p.u p.u + K p.v p.v - 2 * K p.u p.v) * phi 1 / (Real.sqrt 2 * P.sigma))) :
    Agrees F p := by
  obtain ⟨m, hm, -⟩ := C97_mode_unique P.sigma [p] hK
  have hc := C97_converged o ho P hs.ne' [p] hK hinv F0 F k D h hk hr m hm
  have hl := C110_single_lead hs p huv hp hK hm
  have a1 := abs_le.1 (hc p.u)
  have a2 := abs_le.1 (hc p.v)
  unfold Agrees
  rcases hp with hp | hp <;> rw [hp] at hl ⊢ <;> push_cast at hl ⊢ <;> linarith [a1.1, a1.2, a2.1, a2.2]

/-- C110 for the stored values: two converged fits, one with further training points that are never compared. At the
compared points they agree up to the errors of `C97_converged`. -/
theorem C110_stored_uncompared (o : ModeOpts) (ho : o.normalizeGp = false) (P : ProbitSet) (hs : 0 < P.sigma)
    (e : Fin (t + 1) → Fin (n + 1)) (he : Function.Injective e) (y : List (IPair (t + 1)))
    {K : Matrix (Fin (n + 1)) (Fin (n + 1)) ℝ} (hK : K.PosDef)
    {invert : Matrix (Fin (n + 1)) (Fin (n + 1)) ℝ → Option (Matrix (Fin (n + 1)) (Fin (n + 1)) ℝ)}
    (hinv : InvertsInvertible invert)
    {invert' : Matrix (Fin (t + 1)) (Fin (t + 1)) ℝ → Option (Matrix (Fin (t + 1)) (Fin (t + 1)) ℝ)}
    (hinv' : InvertsInvertible invert') (F0 F : Fin (n + 1) → ℝ) (F0' F' : Fin (t + 1) → ℝ) (k k' : Nat)
    (D : Option (Derivs (n + 1))) (D' : Option (Derivs (t + 1)))
    (h : findMode o P (onlyPairs (y.map (renamed e))) K invert F0 = .ok ⟨some F, k, D⟩) (hk : k ≤ o.maxloops)
    (hr : ∀ G, ‖F - G‖ ≤ o.deltaF → PairsInRange P.sigma (y.map (renamed e)) G)
    (h' : findMode o P (onlyPairs y) (K.submatrix e e) invert' F0' = .ok ⟨some F', k', D'⟩) (hk' : k' ≤ o.maxloops)
    (hr' : ∀ G, ‖F' - G‖ ≤ o.deltaF → PairsInRange P.sigma y G) (i : Fin (t + 1)) :
    |F (e i) - F' i| ≤ (modeErrorFactor P.sigma (y.map (renamed e)) K (e i) +
      modeErrorFactor P.sigma y (K.submatrix e e) i) * o.deltaF := by
  obtain ⟨m, hm, -⟩ := C97_mode_unique P.sigma (y.map (renamed e)) hK
  have hm' := C110_uncompared hs e he y hK hm
  have a1 := C97_converged o ho P hs.ne' _ hK hinv F0 F k D h hk hr m hm (e i)
  have a2 := C97_converged o ho P hs.ne' y (hK.submatrix he) hinv' F0' F' k' D' h' hk' hr' _ hm' i
  rw [Function.comp_apply] at a2
  rw [abs_le] at a1 a2 ⊢
  constructor <;> linarith [a1.1, a1.2, a2.1, a2.2]

/-- C110: between two points that are compared with each other only, the majority decides: with `a` answers for `v` and
`b` for `u` the mode puts `v` above `u` exactly when `a > b`. -/
theorem C110_majority {sigma : ℝ} (hs : 0 < sigma) {u v : Fin n} (huv : u ≠ v) (a b : Nat) (y : List (IPair n))
    (hy : y.Perm (List.replicate a ⟨1, u, v⟩ ++ List.replicate b ⟨-1, u, v⟩)) {K : Matrix (Fin n) (Fin n) ℝ}
    (hK : K.PosDef) {m : Fin n → ℝ} (hm : IsMode sigma y K m) : m u < m v ↔ b < a := by
  rw [C110_order sigma hy] at hm
  have hfix := (C110_representer hs _ hK m).1.1 hm
  have hc : 0 < Real.sqrt 2 * sigma := by positivity
  set z := (m v - m u) / (Real.sqrt 2 * sigma) with hz
  have e1 : pairPull sigma m ⟨1, u, v⟩ = mratio z / (Real.sqrt 2 * sigma) := by
    simp [pairPull, pairZ, mratio, hz]
  have e2 : pairPull sigma m ⟨-1, u, v⟩ = mratio (-z) / (Real.sqrt 2 * sigma) := by
    have : pairZ sigma m ⟨-1, u, v⟩ = -z := by simp [pairZ, hz]; ring
    simp [pairPull, mratio, this]
  have hval : ∀ i, m i = (a * mratio z - b * mratio (-z)) / (Real.sqrt 2 * sigma) * (K i v - K i u) := by
    intro i
    rw [hfix i]
    simp only [List.map_append, List.map_replicate, List.sum_append, List.sum_replicate, e1, e2, nsmul_eq_mul]
    push_cast
    ring
  have hdiff : m v - m u = (a * mratio z - b * mratio (-z)) * ((K v v - K v u - (K u v - K u u)) /
      (Real.sqrt 2 * sigma)) := by
    rw [hval v, hval u]
    ring
  have hpos : 0 < (K v v - K v u - (K u v - K u u)) / (Real.sqrt 2 * sigma) := div_pos (var_diff_pos hK huv) hc
  have hanti : ∀ x, 0 ≤ x → mratio x ≤ mratio (-x) := fun x hx => mratio_antitone (by linarith)
  constructor
  · intro h
    have hz0 : 0 < z := div_pos (by linarith) hc
    have : 0 < a * mratio z - b * mratio (-z) := by
      by_contra hcon
      push Not at hcon
      have := mul_nonneg (neg_nonneg.2 hcon) hpos.le
      linarith
    by_contra hab
    push Not at hab
    have hab' : (a : ℝ) ≤ b := by exact_mod_cast hab
    have h1 := hanti z hz0.le
    have h2 := mul_le_mul hab' h1 (mratio_pos z).le (Nat.cast_nonneg b)
    linarith
  · intro hab
    by_contra h
    push Not at h
    have hz0 : z ≤ 0 := div_nonpos_of_nonpos_of_nonneg (by linarith) hc.le
    have hab' : (b : ℝ) < a := by exact_mod_cast hab
    have h1 := hanti (-z) (by linarith)
    rw [neg_neg] at h1
    have h2 : (b : ℝ) * mratio (-z) < a * mratio z := by
      calc (b : ℝ) * mratio (-z) ≤ b * mratio z := mul_le_mul_of_nonneg_left h1 (Nat.cast_nonneg b)
        _ < a * mratio z := mul_lt_mul_of_pos_right hab' (mratio_pos z)
    have := mul_pos (sub_pos.2 h2) hpos
    linarith

/-- C110, what is not guaranteed: comparisons which a utility explains need not all be agreed with. If 0 beats 1 often
enough and 1 beats 2 once, the mode of three independent points puts 2 above 1. -/
theorem C110_all_counterexample : ∃ N : Nat, ∀ m : Fin 3 → ℝ,
    IsMode 1 (⟨-1, 1, 2⟩ :: List.replicate N ⟨-1, 0, 1⟩) (1 : Matrix (Fin 3) (Fin 3) ℝ) m → m 1 < m 2 := by
  have hc : 0 < Real.sqrt 2 := by positivity
  have hc2 : Real.sqrt 2 * Real.sqrt 2 = 2 := Real.mul_self_sqrt (by norm_num)
  obtain ⟨N, hN⟩ := exists_nat_gt (2 * mratio 0 / mratio (2 * mratio 0))
  refine ⟨N, fun m hm => ?_⟩
  have hfix := (C110_representer one_pos _ Matrix.PosDef.one m).1.1 hm
  set z := (m 0 - m 1) / Real.sqrt 2 with hz
  set x := (m 1 - m 2) / Real.sqrt 2 with hx
  have e1 : pairPull 1 m ⟨-1, 0, 1⟩ = mratio z / Real.sqrt 2 := by
    have : pairZ 1 m ⟨-1, 0, 1⟩ = z := by simp [pairZ, hz]
    simp [pairPull, mratio, this]
  have e2 : pairPull 1 m ⟨-1, 1, 2⟩ = mratio x / Real.sqrt 2 := by
    have : pairZ 1 m ⟨-1, 1, 2⟩ = x := by simp [pairZ, hx]
    simp [pairPull, mratio, this]
  have h0 : m 0 = N * (mratio z / Real.sqrt 2) := by
    rw [hfix 0]
    simp [e1, e2, Matrix.one_apply]
  have h1 : m 1 = mratio x / Real.sqrt 2 - N * (mratio z / Real.sqrt 2) := by
    rw [hfix 1]
    simp [e1, e2, Matrix.one_apply]
    ring
  have h2 : m 2 = -(mratio x / Real.sqrt 2) := by
    rw [hfix 2]
    simp [e1, e2, Matrix.one_apply]
  by_contra hcon
  push Not at hcon
  have hx0 : 0 ≤ x := div_nonneg (by linarith) hc.le
  have hmx : mratio x ≤ mratio 0 := mratio_antitone hx0
  have hle : N * mratio z ≤ 2 * mratio x := by
    have : N * (mratio z / Real.sqrt 2) ≤ 2 * (mratio x / Real.sqrt 2) := by linarith
    have := mul_le_mul_of_nonneg_right this hc.le
    field_simp at this
    linarith
  have hzle : z ≤ 2 * mratio 0 := by
    rw [hz, div_le_iff₀ hc]
    have h3 : m 0 - m 1 = (2 * (N * mratio z) - mratio x) / Real.sqrt 2 := by rw [h0, h1]; ring
    rw [h3, div_le_iff₀ hc, mul_assoc, hc2]
    have := mratio_pos x
    linarith
  have hmz : mratio (2 * mratio 0) ≤ mratio z := mratio_antitone hzle
  have hNpos : (0 : ℝ) ≤ N := Nat.cast_nonneg N
  rw [div_lt_iff₀ (mratio_pos _)] at hN
  have := mul_le_mul_of_nonneg_left hmz hNpos
  linarith

/-- Two comparisons of three points, and one more that contradicts them (instances of `C110_more`,
`C110_consistent` and `C110_single`). -/
example : Strict (⟨-1, 0, 1⟩ : IPair 3) ∧ Strict (⟨1, 0, 2⟩ : IPair 3) ∧
    (1 : Matrix (Fin 3) (Fin 3) ℝ).PosDef ∧
    (∀ p ∈ [(⟨-1, 0, 1⟩ : IPair 3), ⟨1, 0, 2⟩], Strict p → Agrees ![1, 0, 2] p) ∧
    ∃ m m', IsMode 1 [(⟨-1, 0, 1⟩ : IPair 3), ⟨1, 0, 2⟩] 1 m ∧
      IsMode 1 [(⟨-1, 0, 1⟩ : IPair 3), ⟨1, 0, 1⟩, ⟨1, 0, 2⟩] 1 m' ∧ m 1 - m 0 < m' 1 - m' 0 := by
  refine ⟨⟨by decide, by decide⟩, ⟨by decide, by decide⟩, Matrix.PosDef.one, ?_, ?_⟩
  · intro p hp _
    simp only [List.mem_cons, List.not_mem_nil, or_false] at hp
    rcases hp with rfl | rfl <;> simp [Agrees]
  · obtain ⟨m, hm, -⟩ := C97_mode_unique 1 [(⟨-1, 0, 1⟩ : IPair 3), ⟨1, 0, 2⟩] (Matrix.PosDef.one (R := ℝ))
    obtain ⟨m', hm', -⟩ :=
      C97_mode_unique 1 [(⟨-1, 0, 1⟩ : IPair 3), ⟨1, 0, 1⟩, ⟨1, 0, 2⟩] (Matrix.PosDef.one (R := ℝ))
    refine ⟨m, m', hm, hm', ?_⟩
    have := (C110_more one_pos _ ⟨1, 0, 1⟩ Matrix.PosDef.one hm (List.Perm.swap _ _ _) hm').2
      ⟨by decide, by decide⟩
    simpa using this

/-- A balanced set of comparisons (a cycle), from which nothing is learned. -/
example : IsMode 1 [(⟨-1, 0, 1⟩ : IPair 3), ⟨-1, 1, 2⟩, ⟨-1, 2, 0⟩] 1 0 := by
  refine (C110_nothing one_pos _ Matrix.PosDef.one).2 fun i => ?_
  fin_cases i <;> simp

/-- Two compared points among four. -/
example : Function.Injective (![1, 3] : Fin 2 → Fin 4) := by decide

end Lop.Props
