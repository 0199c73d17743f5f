import Verif.Proofs.OrdConcave
import Verif.Proofs.Assign
import Verif.Proofs.RatingModes

/-! # C111: fits with comparisons and ordinal ratings -/

namespace Lop.Props

open Lop.Spec Matrix

variable {n : Nat}

/-- C111: with increasing thresholds the log-likelihood of ordinal ratings is a concave function of the values. -/
theorem C111_concave {t : List ℝ} (ht : t.Pairwise (· < ·)) {sigma : ℝ} (hs : 0 < sigma) (y : List (Nat × Fin n))
    (hy : RatingsValid t y) : ConcaveOn ℝ Set.univ (ordLogLik t sigma y) := ordLogLik_concave ht hs y hy

private lemma both_concave (sigma : ℝ) {t : List ℝ} (ht : t.Pairwise (· < ·)) {so : ℝ} (hs : 0 < so)
    (pairs : List (IPair n)) (y : List (Nat × Fin n)) (hy : RatingsValid t y) :
    ConcaveOn ℝ Set.univ (pairOrdLogLik sigma t so pairs y) :=
  (C37_concave sigma pairs).add (C111_concave ht hs y hy)

private lemma both_gradient (sigma : ℝ) {t : List ℝ} (ht : t.Pairwise (· < ·)) {so : ℝ} (hs : 0 < so)
    (pairs : List (IPair n)) (y : List (Nat × Fin n)) (hy : RatingsValid t y) (F : Fin n → ℝ) :
    IsGradientAt (pairOrdLogLik sigma t so pairs y) (pairGradV sigma pairs F + ordGradV t so y F) F :=
  (isGradientAt_pairLogLik sigma pairs F).add' (isGradientAt_ordLogLik ht hs y hy F)

/-- C111: the posterior of comparisons and ordinal ratings has exactly one mode. -/
theorem C111_mode_unique (sigma : ℝ) {t : List ℝ} (ht : t.Pairwise (· < ·)) {so : ℝ} (hs : 0 < so)
    (pairs : List (IPair n)) (y : List (Nat × Fin n)) (hy : RatingsValid t y) {K : Matrix (Fin n) (Fin n) ℝ}
    (hK : K.PosDef) : ∃! m, IsOrdMode sigma t so pairs y K m := by
  have hpl : ∀ F, pairLogLik sigma pairs F ≤ 0 := by
    intro F
    unfold pairLogLik
    have := sum_map_nonneg (l := pairs) (f := fun p => -Real.log (Phi (pairZ sigma F p))) fun p _ =>
      neg_nonneg.2 (Real.log_nonpos (Phi_pos _).le (Phi_lt_one _).le)
    rw [← sum_map_neg] at this
    linarith
  have hcont : Continuous (pairOrdLogLik sigma t so pairs y) :=
    continuous_iff_continuousAt.2 fun F => HasFDerivAt.continuousAt (both_gradient sigma ht hs pairs y hy F)
  have hcq : Continuous fun F : Fin n → ℝ => F ⬝ᵥ (K⁻¹ *ᵥ F) := by
    simp only [dotProduct, mulVec]
    fun_prop
  obtain ⟨m, hm⟩ := exists_max_of_quadratic hK.inv (c := 0)
    (f := fun F => pairOrdLogLik sigma t so pairs y F - 1 / 2 * (F ⬝ᵥ (K⁻¹ *ᵥ F)))
    (hcont.sub (hcq.const_mul (1 / 2))) (fun F => by
      have h1 := hpl F
      have h2 := ordLogLik_nonpos ht hs y hy F
      simp only [pairOrdLogLik]
      linarith)
  refine ⟨m, (isOrdMode_iff hK).2 hm, fun m' hm' => ?_⟩
  have h1 := strong_max hK (both_concave sigma ht hs pairs y hy) (F := m') hm
  have h2 := (isOrdMode_iff hK).1 hm' m
  have h3 : (m' - m) ⬝ᵥ (K⁻¹ *ᵥ (m' - m)) ≤ 0 := by linarith
  funext i
  have h4 := entry_sq_le hK (m' - m) i
  have h5 : K i i * ((m' - m) ⬝ᵥ (K⁻¹ *ᵥ (m' - m))) ≤ 0 := mul_nonpos_of_nonneg_of_nonpos hK.diag_pos.le h3
  have h6 : (m' - m) i = 0 := pow_eq_zero_iff (two_ne_zero) |>.1 (le_antisymm (h4.trans h5) (sq_nonneg _))
  simpa [sub_eq_zero] using h6

private lemma mode_fixed {sigma : ℝ} {t : List ℝ} (ht : t.Pairwise (· < ·)) {so : ℝ} (hs : 0 < so)
    {pairs : List (IPair n)} {y : List (Nat × Fin n)} (hy : RatingsValid t y) {K : Matrix (Fin n) (Fin n) ℝ}
    (hK : K.PosDef) {m : Fin n → ℝ} : IsOrdMode sigma t so pairs y K m ↔
      m = K *ᵥ (pairGradV sigma pairs m + ordGradV t so y m) := by
  rw [isOrdMode_iff hK]
  exact max_iff_fixed hK (both_concave sigma ht hs pairs y hy) (both_gradient sigma ht hs pairs y hy m)

private lemma dot_ordGradV (t : List ℝ) (so : ℝ) (y : List (Nat × Fin n)) (F v : Fin n → ℝ) :
    v ⬝ᵥ ordGradV t so y F = (y.map fun p => ordD t so p.1 (F p.2) * v p.2).sum := by
  induction y with
  | nil => simp [ordGradV, dotProduct]
  | cons p y ih =>
    have e : ordGradV t so (p :: y) F = (fun i => if p.2 = i then ordD t so p.1 (F p.2) else 0) + ordGradV t so y F := by
      funext i
      simp [ordGradV]
    rw [e, dotProduct_add, ih]
    simp [dotProduct, mul_comm]

/-- C111: the mode, outright: at every training point its value is the sum over all comparisons of the prior
covariance with the winner minus that with the loser, times a positive weight, plus the sum over all ratings of the
prior covariance with the rated point, times the derivative of the log-probability of the rating; nothing else has
this property. -/
theorem C111_representer (sigma : ℝ) {t : List ℝ} (ht : t.Pairwise (· < ·)) {so : ℝ} (hs : 0 < so)
    (pairs : List (IPair n)) (y : List (Nat × Fin n)) (hy : RatingsValid t y) {K : Matrix (Fin n) (Fin n) ℝ}
    (hK : K.PosDef) (m : Fin n → ℝ) : IsOrdMode sigma t so pairs y K m ↔
      ∀ i, m i = (pairs.map fun p => pairPull sigma m p * p.dk * (K i p.v - K i p.u)).sum +
        (y.map fun p => deriv (fun f => Real.log (ordProb t so p.1 f)) (m p.2) * K i p.2).sum := by
  rw [mode_fixed ht hs hy hK, funext_iff]
  refine forall_congr' fun i => ?_
  rw [show (K *ᵥ (pairGradV sigma pairs m + ordGradV t so y m)) i =
    K i ⬝ᵥ (pairGradV sigma pairs m + ordGradV t so y m) from rfl, dotProduct_add, dot_pairGradV, dot_ordGradV]
  have : (y.map fun p => ordD t so p.1 (m p.2) * K i p.2) =
      y.map fun p => deriv (fun f => Real.log (ordProb t so p.1 f)) (m p.2) * K i p.2 := by
    refine List.map_congr_left fun p hp => ?_
    rw [(hasDerivAt_logOrdProb t so p.1 (m p.2) (ordProb_gt_zero ht hs (hy p hp).1 (hy p hp).2 _).ne').deriv]
  rw [this]

/-- C111: raising one rating, all other labels as they are, strictly raises the value learned for the rated point. -/
theorem C111_higher (sigma : ℝ) {t : List ℝ} (ht : t.Pairwise (· < ·)) {so : ℝ} (hs : 0 < so)
    (pairs : List (IPair n)) (y1 y2 : List (Nat × Fin n)) (u : Fin n) {k k' : Nat} (hkk : k < k')
    (hy : RatingsValid t (y1 ++ (k, u) :: y2)) (hy' : RatingsValid t (y1 ++ (k', u) :: y2))
    {K : Matrix (Fin n) (Fin n) ℝ} (hK : K.PosDef) {m m' : Fin n → ℝ}
    (hm : IsOrdMode sigma t so pairs (y1 ++ (k, u) :: y2) K m)
    (hm' : IsOrdMode sigma t so pairs (y1 ++ (k', u) :: y2) K m') : m u < m' u := by
  obtain ⟨hk1, hk2⟩ : 1 ≤ k ∧ k ≤ t.length + 1 := hy (k, u) (by simp)
  obtain ⟨hk1', hk2'⟩ : 1 ≤ k' ∧ k' ≤ t.length + 1 := hy' (k', u) (by simp)
  set h : ℝ → ℝ := fun f => Real.log (ordProb t so k' f) - Real.log (ordProb t so k f) with hh
  have hmono : StrictMono h := by
    have hd : ∀ f, HasDerivAt h (ordD t so k' f - ordD t so k f) f := fun f =>
      (hasDerivAt_logOrdProb t so k' f (ordProb_gt_zero ht hs hk1' hk2' f).ne').sub
        (hasDerivAt_logOrdProb t so k f (ordProb_gt_zero ht hs hk1 hk2 f).ne')
    refine strictMono_of_deriv_pos fun f => ?_
    rw [(hd f).deriv]
    exact sub_pos.2 (ordD_strictMono ht hs hk1 hkk hk2' f)
  have hdiff : ∀ G, pairOrdLogLik sigma t so pairs (y1 ++ (k', u) :: y2) G =
      pairOrdLogLik sigma t so pairs (y1 ++ (k, u) :: y2) G + h (G u) := by
    intro G
    simp only [pairOrdLogLik, ordLogLik, List.map_append, List.map_cons, List.sum_append, List.sum_cons, hh]
    ring
  have a := (isOrdMode_iff hK).1 hm m'
  have b := (isOrdMode_iff hK).1 hm' m
  rw [hdiff, hdiff] at b
  have hle : m u ≤ m' u := hmono.le_iff_le.1 (by linarith)
  refine lt_of_le_of_ne hle fun he => ?_
  have hmode : IsOrdMode sigma t so pairs (y1 ++ (k', u) :: y2) K m := by
    rw [isOrdMode_iff hK]
    intro G
    have c := (isOrdMode_iff hK).1 hm' G
    rw [hdiff m', ← he] at c
    rw [hdiff m]
    linarith
  have hu : IsUnit K.det := (Matrix.isUnit_iff_isUnit_det _).1 hK.isUnit
  have f1 := (mode_fixed ht hs hy hK).1 hm
  have f2 := (mode_fixed ht hs hy' hK).1 hmode
  have f3 := congrArg (fun x => K⁻¹ *ᵥ x) (f1.symm.trans f2)
  simp only [mulVec_mulVec, nonsing_inv_mul _ hu, one_mulVec] at f3
  have f4 := congrFun f3 u
  simp only [Pi.add_apply, ordGradV, List.map_append, List.map_cons, List.sum_append, List.sum_cons, if_true] at f4
  have := ordD_strictMono ht hs hk1 hkk hk2' (m u)
  linarith

/-- C111, any labels (pairs, ordinal ratings, ratings): when the loop of `find_mode` ends on its tolerance (no
normalisation), the point before the last step, at most `delta_f` away from what is stored, has a small gradient: each
entry of what the code uses as gradient of the log posterior is at most `32/3 · delta_f` times the sum of the absolute
values of a column of the matrix it inverts, or at most `32/3 · delta_f` if the inversion failed. -/
theorem C111_small_gradient (o : ModeOpts) (ho : o.normalizeGp = false) (P : ProbitSet) (y : TrainLabels (n + 1))
    {K : Matrix (Fin (n + 1)) (Fin (n + 1)) ℝ} (hK : K.PosDef)
    {invert : Matrix (Fin (n + 1)) (Fin (n + 1)) ℝ → Option (Matrix (Fin (n + 1)) (Fin (n + 1)) ℝ)}
    (F0 F' : Fin (n + 1) → ℝ) (k : Nat) (D : Option (Derivs (n + 1)))
    (h : findMode o P y K invert F0 = .ok ⟨some F', k, D⟩) (hk : k ≤ o.maxloops) :
    ∃ F r, gpDerivatives P y F = .ok (some r) ∧ ‖F' - F‖ ≤ o.deltaF ∧
      (InvertsInvertible invert → IsUnit (-r.1 - K⁻¹).det →
        ∀ j, |(r.2.1 - K⁻¹ *ᵥ F) j| ≤ 32 / 3 * |((r.1 + K⁻¹)ᵀ *ᵥ (F' - F)) j| ∧
          |(r.2.1 - K⁻¹ *ᵥ F) j| ≤ 32 / 3 * o.deltaF * ∑ i, |(r.1 + K⁻¹) i j|) ∧
      (invert (-r.1 - K⁻¹) = none → ∀ j, |(r.2.1 - K⁻¹ *ᵥ F) j| ≤ 32 / 3 * o.deltaF) := by
  obtain ⟨F, F1, hu, hn, hd⟩ := fit_last_step hK h
  simp only [normalizeIterate, ho, Bool.false_eq_true, if_false, Option.some.injEq] at hn
  subst hn
  have hΔ := hd hk
  unfold findModeUpdate at hu
  cases hg : gpDerivatives P y F with
  | error e => rw [hg] at hu; simp [bind, Except.bind] at hu
  | ok r =>
    rw [hg] at hu
    cases r with
    | none => simp [bind, Except.bind, pure, Except.pure] at hu
    | some r =>
      refine ⟨F, r, hg, hΔ, ?_⟩
      simp only [bind, Except.bind, modeGradHess, newtonUpdate, pure, Except.pure, Except.ok.injEq, Option.some.injEq] at hu
      have hl : (3 / 32 : ℝ) ≤ binarySearch (fun lam : ℝ => lossValue (likliF P y K
          (F - lam • descentDir (r.2.1 - K⁻¹ *ᵥ F) (-r.1 - K⁻¹) invert))) 3 0 (3 / 2) := by
        obtain ⟨a, b, h1, h2, h3, h4, h5, -⟩ := C28_interval (fun lam : ℝ => lossValue (likliF P y K
          (F - lam • descentDir (r.2.1 - K⁻¹ *ᵥ F) (-r.1 - K⁻¹) invert))) 3 0 (3 / 2 : ℝ) (by norm_num)
        rw [h5]
        norm_num at h4
        linarith
      generalize binarySearch (fun lam : ℝ => lossValue (likliF P y K
          (F - lam • descentDir (r.2.1 - K⁻¹ *ᵥ F) (-r.1 - K⁻¹) invert))) 3 0 (3 / 2) = lam at hu hl
      have hx : ∀ i, |(F1 - F) i| ≤ o.deltaF := fun i => (norm_le_pi_norm (F1 - F) i).trans hΔ
      generalize hgr : r.2.1 - K⁻¹ *ᵥ F = g at *
      have hscale : ∀ a b : ℝ, lam * a = b → |a| ≤ 32 / 3 * |b| := by
        intro a b hab
        rw [← hab, abs_mul, abs_of_nonneg (by linarith : 0 ≤ lam)]
        nlinarith [abs_nonneg a]
      constructor
      · intro hinv hdet j
        have hdir : descentDir g (-r.1 - K⁻¹) invert = g ᵥ* (-r.1 - K⁻¹)⁻¹ := by
          simp [descentDir, hinv _ hdet]
        rw [hdir] at hu
        have e : lam • g = (r.1 + K⁻¹)ᵀ *ᵥ (F1 - F) := by
          have h1 : F1 - F = -(lam • (g ᵥ* (-r.1 - K⁻¹)⁻¹)) := by rw [← hu]; abel
          have h2 : r.1 + K⁻¹ = -(-r.1 - K⁻¹) := by abel
          rw [h1, h2, mulVec_transpose, vecMul_neg, neg_vecMul, neg_neg, smul_vecMul, vecMul_vecMul,
            nonsing_inv_mul _ hdet, vecMul_one]
        have e1 : |g j| ≤ 32 / 3 * |((r.1 + K⁻¹)ᵀ *ᵥ (F1 - F)) j| := by
          refine hscale _ _ ?_
          rw [← e]; rfl
        refine ⟨e1, e1.trans ?_⟩
        have e2 : |((r.1 + K⁻¹)ᵀ *ᵥ (F1 - F)) j| ≤ o.deltaF * ∑ i, |(r.1 + K⁻¹) i j| := by
          rw [Finset.mul_sum, show ((r.1 + K⁻¹)ᵀ *ᵥ (F1 - F)) j = ∑ i, (r.1 + K⁻¹) i j * (F1 - F) i from rfl]
          refine (Finset.abs_sum_le_sum_abs _ _).trans (Finset.sum_le_sum fun i _ => ?_)
          rw [abs_mul, mul_comm]
          exact mul_le_mul_of_nonneg_right (hx i) (abs_nonneg _)
        nlinarith
      · intro hnone j
        have hdir : descentDir g (-r.1 - K⁻¹) invert = g := by simp [descentDir, hnone]
        rw [hdir] at hu
        have e : lam * g j = -((F1 - F) j) := by
          rw [← hu]
          simp
        have := hscale _ _ e
        rw [abs_neg] at this
        have := hx j
        linarith

private lemma lastValue_bound {m : Nat} (l : List (Fin m × ℝ)) {B : ℝ} (hB : 0 ≤ B) (h : ∀ e ∈ l, |e.2| ≤ B) (k : Fin m) :
    |lastValue l k| ≤ B := by
  unfold lastValue
  split
  · next e he => exact h e (List.mem_of_mem_filter (List.mem_of_getLast? he))
  · simpa using hB

private lemma gradient_unique {m : Nat} {f : (Fin m → ℝ) → ℝ} {g g' F : Fin m → ℝ} (h : IsGradientAt f g F)
    (h' : IsGradientAt f g' F) : g = g' := by
  have := HasFDerivAt.unique h h'
  funext i
  have := congrArg (fun (L : (Fin m → ℝ) →L[ℝ] ℝ) => L (Pi.single i 1)) this
  simpa [Pi.single_apply] using this

private lemma ordP_mem (t : List ℝ) (so : ℝ) (k : Nat) (f : ℝ) : 0 ≤ ordP t so k f ∧ ordP t so k f ≤ 1 := by
  cases k with
  | zero => simp [ordP]
  | succ k =>
    cases hk : t[k]? with
    | none => simp [ordP, hk]
    | some r => simpa [ordP, hk] using ⟨(phi_pos _).le, (phi_lt_one _).le⟩

private lemma codeD2_bound {t : List ℝ} {so c : ℝ} (hs : 0 < so) (hc : 0 < c) {k : Nat} {f : ℝ} (hp : c ≤ ordProb t so k f) :
    |(-codeD2 t so k f)| ≤ (1 / c ^ 2 + 1 / c) / so ^ 2 := by
  have hp0 := hc.trans_le hp
  have hd : |ordP t so k f - ordP t so (k - 1) f| ≤ 1 := by
    obtain ⟨a, b⟩ := ordP_mem t so k f
    obtain ⟨a', b'⟩ := ordP_mem t so (k - 1) f
    rw [abs_le]
    constructor <;> linarith
  have h1 : |(ordP t so k f - ordP t so (k - 1) f) / ordProb t so k f| ≤ 1 / c := by
    rw [abs_div, abs_of_pos hp0]
    exact div_le_div₀ zero_le_one hd hc hp
  have e : -codeD2 t so k f = (((ordP t so k f - ordP t so (k - 1) f) / ordProb t so k f) ^ 2 +
      (ordP t so k f - ordP t so (k - 1) f) / ordProb t so k f) / so ^ 2 := by
    unfold codeD2 ordD
    field_simp
  rw [e, abs_div, abs_of_pos (show 0 < so ^ 2 by positivity)]
  gcongr
  refine (abs_add_le _ _).trans (add_le_add ?_ h1)
  rw [abs_pow, one_div, ← inv_pow, ← one_div]
  gcongr

private lemma derivs_eq (P : ProbitSet) {t : List ℝ} (hT : HasThresholds P.ord t) (heps : 0 < P.ordEps)
    (pairs : List (IPair n)) (y : List (Nat × Fin n)) (hy : RatingsValid t y) {F : Fin n → ℝ}
    (hr2 : OrdInRange t P.ord.sigma y F) (hr3 : ∀ p ∈ y, P.ordEps ≤ ordProb t P.ord.sigma p.1 (F p.2)) :
    gpDerivatives P (pairsAndRatings pairs y) F = .ok (some (prefW P.sigma pairs F +
        Matrix.of (assignGrid (y.map fun p => (p.2, -codeD2 t P.ord.sigma p.1 (F p.2)))) + 0,
      prefDerv P.sigma pairs F + assignVec (y.map fun p => (p.2, ordD t P.ord.sigma p.1 (F p.2))) + 0,
      prefLogLik P.sigma pairs F + ordLogLik t P.ord.sigma y F + 0)) := by
  have hyn : ∀ p ∈ y, 1 ≤ p.1 ∧ p.1 ≤ P.ord.n := by rw [hT.2]; exact hy
  have hord : ordDerivatives P.ord P.ordEps (y.map fun p => ((p.1 : Int), p.2)) F = _ :=
    ordDerivatives_eq hT heps y F hyn hr2 hr3
  simp only [gpDerivatives, pairsAndRatings, ordPart, hord, Except.map, Option.map, pairPart, absPart]
  rfl

private lemma grad_eq (P : ProbitSet) {t : List ℝ} {pairs : List (IPair n)} {y : List (Nat × Fin n)}
    (hnd : (y.map (·.2)).Nodup) {F : Fin n → ℝ} (hr1 : PairsInRange P.sigma pairs F) :
    prefDerv P.sigma pairs F + assignVec (y.map fun p => (p.2, ordD t P.ord.sigma p.1 (F p.2))) + 0 =
      pairGradV P.sigma pairs F + ordGradV t P.ord.sigma y F := by
  have e1 : prefDerv P.sigma pairs F = pairGradV P.sigma pairs F :=
    gradient_unique (C37_derivatives P.sigma pairs F hr1).2.1 (isGradientAt_pairLogLik P.sigma pairs F)
  have e2 : assignVec (y.map fun p => (p.2, ordD t P.ord.sigma p.1 (F p.2))) = ordGradV t P.ord.sigma y F := by
    funext j
    rw [assignVec_eq, lastValue_nodup _ (by simpa [Function.comp_def] using hnd)]
    simp [Function.comp_def, ordGradV]
  simp only [add_zero, e1, e2]

/-- C111: a fit of comparisons and ordinal ratings (each point rated at most once) that ended on the tolerance is
within an explicit multiple of the tolerance of the posterior mode, if near it nothing is clipped and all ratings keep
a probability of at least `c ≥ eps`. This holds although the matrix `W` used for the steps is not minus the Hessian
(C40), as long as the matrix of the last step could be inverted. -/
theorem C111_converged (o : ModeOpts) (ho : o.normalizeGp = false) (P : ProbitSet)
    {t : List ℝ} (hT : HasThresholds P.ord t) (ht : t.Pairwise (· < ·)) (hso : 0 < P.ord.sigma) (heps : 0 < P.ordEps)
    {c : ℝ} (hc : P.ordEps ≤ c) (pairs : List (IPair (n + 1))) (y : List (Nat × Fin (n + 1)))
    (hy : RatingsValid t y) (hnd : (y.map (·.2)).Nodup) {K : Matrix (Fin (n + 1)) (Fin (n + 1)) ℝ} (hK : K.PosDef)
    {invert : Matrix (Fin (n + 1)) (Fin (n + 1)) ℝ → Option (Matrix (Fin (n + 1)) (Fin (n + 1)) ℝ)}
    (hinv : InvertsInvertible invert) (F0 F' : Fin (n + 1) → ℝ) (k : Nat) (D : Option (Derivs (n + 1)))
    (h : findMode o P (pairsAndRatings pairs y) K invert F0 = .ok ⟨some F', k, D⟩) (hk : k ≤ o.maxloops)
    (hr : ∀ G, ‖F' - G‖ ≤ o.deltaF → PairsInRange P.sigma pairs G ∧ OrdInRange t P.ord.sigma y G ∧
      (∀ p ∈ y, c ≤ ordProb t P.ord.sigma p.1 (G p.2)) ∧
      ∀ r, gpDerivatives P (pairsAndRatings pairs y) G = .ok (some r) → IsUnit (-r.1 - K⁻¹).det)
    (m : Fin (n + 1) → ℝ) (hm : IsOrdMode P.sigma t P.ord.sigma pairs y K m) (i : Fin (n + 1)) :
    |F' i - m i| ≤ ordErrorFactor P.sigma P.ord.sigma c pairs K i * o.deltaF := by
  obtain ⟨F, r, hg, hΔ, h1, -⟩ := C111_small_gradient o ho P _ hK F0 F' k D h hk
  have hδ : 0 ≤ o.deltaF := (norm_nonneg _).trans hΔ
  have hc0 : 0 < c := heps.trans_le hc
  obtain ⟨hr1, hr2, hr3, hr4⟩ := hr F hΔ
  have h2 := fun j => (h1 hinv (hr4 r hg) j).1
  have hr0 := Option.some.inj (Except.ok.inj (hg.symm.trans
    (derivs_eq P hT heps pairs y hy hr2 (fun p hp => hc.trans (hr3 p hp)))))
  have hgrad : r.2.1 = pairGradV P.sigma pairs F + ordGradV t P.ord.sigma y F := by
    rw [hr0]
    exact grad_eq P hnd hr1
  have hnear := near_max hK (both_concave P.sigma ht hso pairs y hy) (both_gradient P.sigma ht hso pairs y hy F)
    ((isOrdMode_iff hK).1 hm)
  rw [← hgrad] at hnear
  have hx : ∀ i, |(F' - F) i| ≤ o.deltaF := fun i => (norm_le_pi_norm (F' - F) i).trans hΔ
  obtain ⟨-, hv⟩ := prefW_bounds (sigma := P.sigma) pairs (pairs_zk_range hr1) hδ hx
  rw [pairCurvature_eq] at hv
  set col := ordColumn P.sigma P.ord.sigma c pairs K with hcol
  have hcolb : ∀ j, |((r.1 + K⁻¹)ᵀ *ᵥ (F' - F)) j| ≤ o.deltaF * col j := by
    intro j
    have hsym : (prefW P.sigma pairs F)ᵀ = prefW P.sigma pairs F := by
      ext a b
      rw [transpose_apply, prefW_apply, prefW_apply]
      exact sum_map_congr fun p _ => by ring
    have e : (r.1 + K⁻¹)ᵀ *ᵥ (F' - F) = K⁻¹ *ᵥ (F' - F) + prefW P.sigma pairs F *ᵥ (F' - F) +
        fun j => lastValue (y.map fun p => (p.2, -codeD2 t P.ord.sigma p.1 (F p.2))) j * (F' - F) j := by
      have e3 : (Matrix.of (assignGrid (y.map fun p => (p.2, -codeD2 t P.ord.sigma p.1 (F p.2)))))ᵀ *ᵥ (F' - F) =
          fun j => lastValue (y.map fun p => (p.2, -codeD2 t P.ord.sigma p.1 (F p.2))) j * (F' - F) j := by
        funext j
        simp only [mulVec, dotProduct, transpose_apply, of_apply, assignGrid_eq]
        rw [Finset.sum_eq_single j]
        · simp
        · intro b _ hb
          simp [hb]
        · simp
      rw [hr0]
      simp only [add_zero]
      rw [transpose_add, transpose_add, add_mulVec, add_mulVec, e3, hsym, inv_symm hK]
      abel
    rw [e]
    have b1 : |(K⁻¹ *ᵥ (F' - F)) j| ≤ o.deltaF * ∑ i, |K⁻¹ j i| := by
      rw [Finset.mul_sum, show (K⁻¹ *ᵥ (F' - F)) j = ∑ i, K⁻¹ j i * (F' - F) i from rfl]
      refine (Finset.abs_sum_le_sum_abs _ _).trans (Finset.sum_le_sum fun i _ => ?_)
      rw [abs_mul, mul_comm]
      exact mul_le_mul_of_nonneg_right (hx i) (abs_nonneg _)
    have hB : 0 ≤ (1 / c ^ 2 + 1 / c) / P.ord.sigma ^ 2 := by positivity
    have b3 : |lastValue (y.map fun p => (p.2, -codeD2 t P.ord.sigma p.1 (F p.2))) j * (F' - F) j| ≤
        (1 / c ^ 2 + 1 / c) / P.ord.sigma ^ 2 * o.deltaF := by
      rw [abs_mul]
      refine mul_le_mul (lastValue_bound _ hB ?_ j) (hx j) (abs_nonneg _) hB
      intro e he
      obtain ⟨p, hp, rfl⟩ := List.mem_map.1 he
      exact codeD2_bound hso hc0 (hr3 p hp)
    have b2 := hv j
    simp only [Pi.add_apply]
    refine (abs_add_le _ _).trans ((add_le_add ((abs_add_le _ _).trans (add_le_add b1 b2)) b3).trans (le_of_eq ?_))
    rw [hcol]
    simp only [ordColumn]
    ring
  have hgb : ∀ j, |(r.2.1 - K⁻¹ *ᵥ F) j| ≤ 32 / 3 * o.deltaF * col j := fun j => by
    have := h2 j
    have := hcolb j
    linarith
  generalize r.2.1 - K⁻¹ *ᵥ F = g at *
  set S := ∑ j, ∑ l, |K j l| * (col j * col l) with hS
  have hquad : g ⬝ᵥ (K *ᵥ g) ≤ (32 / 3 * o.deltaF) ^ 2 * S := by
    have e : g ⬝ᵥ (K *ᵥ g) = ∑ j, ∑ l, g j * (K j l * g l) := by
      simp only [dotProduct, mulVec, Finset.mul_sum]
    rw [e, hS, Finset.mul_sum]
    refine Finset.sum_le_sum fun j _ => ?_
    rw [Finset.mul_sum]
    refine Finset.sum_le_sum fun l _ => ?_
    refine (le_abs_self _).trans ?_
    rw [abs_mul, abs_mul]
    have := mul_le_mul (hgb j) (hgb l) (abs_nonneg _) ((abs_nonneg _).trans (hgb j))
    nlinarith [abs_nonneg (K j l)]
  have hKi : 0 < K i i := hK.diag_pos
  have hent := entry_sq_le hK (F - m) i
  have hsq : |F i - m i| ≤ 32 / 3 * o.deltaF * Real.sqrt (K i i * S) := by
    have h1 : (F i - m i) ^ 2 ≤ (32 / 3 * o.deltaF) ^ 2 * (K i i * S) := by
      have := hent.trans (mul_le_mul_of_nonneg_left (hnear.trans hquad) hKi.le)
      simp only [Pi.sub_apply] at this
      linarith
    have h2 := Real.abs_le_sqrt h1
    rwa [Real.sqrt_mul (sq_nonneg _), Real.sqrt_sq (by positivity)] at h2
  have h3 : |F' i - m i| ≤ |F' i - F i| + |F i - m i| := abs_sub_le _ _ _
  have h4 : |F' i - F i| ≤ o.deltaF := hx i
  unfold ordErrorFactor
  rw [← hcol, ← hS]
  linarith

/-- C111, when the matrix of a step can be inverted: if the prior is narrow compared with the noise of the ratings
(`K⁻¹` exceeds `1/(4σ²)`, that is all eigenvalues of `K` are below `4σ²`), then it is always minus a positive definite
matrix, so every step goes uphill. -/
theorem C111_narrow_prior (P : ProbitSet) (hps : P.sigma ≠ 0) {t : List ℝ} (hT : HasThresholds P.ord t)
    (hso : 0 < P.ord.sigma) (heps : 0 < P.ordEps) (pairs : List (IPair n)) (y : List (Nat × Fin n))
    (hy : RatingsValid t y) {K : Matrix (Fin n) (Fin n) ℝ}
    (hK4 : (K⁻¹ - (1 / (4 * P.ord.sigma ^ 2)) • (1 : Matrix (Fin n) (Fin n) ℝ)).PosDef) (F : Fin n → ℝ)
    (hr1 : PairsInRange P.sigma pairs F) (hr2 : OrdInRange t P.ord.sigma y F)
    (hr3 : ∀ p ∈ y, P.ordEps ≤ ordProb t P.ord.sigma p.1 (F p.2)) :
    ∃ r, gpDerivatives P (pairsAndRatings pairs y) F = .ok (some r) ∧ (r.1 + K⁻¹).PosDef ∧ IsUnit (-r.1 - K⁻¹).det := by
  refine ⟨_, derivs_eq P hT heps pairs y hy hr2 hr3, ?_⟩
  set l := y.map fun p => (p.2, -codeD2 t P.ord.sigma p.1 (F p.2)) with hl
  have hlow : ∀ j, -(1 / (4 * P.ord.sigma ^ 2)) ≤ lastValue l j := by
    intro j
    unfold lastValue
    split
    · next e he =>
      obtain ⟨p, hp, rfl⟩ := List.mem_map.1 (List.mem_of_mem_filter (List.mem_of_getLast? he))
      have hp0 := heps.trans_le (hr3 p hp)
      have e : -codeD2 t P.ord.sigma p.1 (F p.2) = (((ordP t P.ord.sigma p.1 (F p.2) - ordP t P.ord.sigma (p.1 - 1) (F p.2)) /
          ordProb t P.ord.sigma p.1 (F p.2) + 1 / 2) ^ 2 - 1 / 4) / P.ord.sigma ^ 2 := by
        unfold codeD2 ordD
        field_simp
        ring
      rw [e]
      have : 0 ≤ ((ordP t P.ord.sigma p.1 (F p.2) - ordP t P.ord.sigma (p.1 - 1) (F p.2)) /
          ordProb t P.ord.sigma p.1 (F p.2) + 1 / 2) ^ 2 / P.ord.sigma ^ 2 := by positivity
      have e2 : 1 / (4 * P.ord.sigma ^ 2) = 1 / 4 / P.ord.sigma ^ 2 := by field_simp
      rw [e2, sub_div]
      linarith
    · have : 0 ≤ 1 / (4 * P.ord.sigma ^ 2) := by positivity
      linarith
  have hdiag : (Matrix.of (assignGrid l) + (1 / (4 * P.ord.sigma ^ 2)) • (1 : Matrix (Fin n) (Fin n) ℝ)).PosSemidef := by
    have : Matrix.of (assignGrid l) + (1 / (4 * P.ord.sigma ^ 2)) • (1 : Matrix (Fin n) (Fin n) ℝ) =
        Matrix.diagonal fun j => lastValue l j + 1 / (4 * P.ord.sigma ^ 2) := by
      ext a b
      rw [Matrix.add_apply, of_apply, assignGrid_eq, Matrix.smul_apply, one_apply, diagonal_apply]
      split_ifs with h
      · subst h; simp
      · simp
    rw [this]
    exact PosSemidef.diagonal fun j => by have := hlow j; simp only [Pi.zero_apply]; linarith
  have hpd : (prefW P.sigma pairs F + Matrix.of (assignGrid l) + 0 + K⁻¹).PosDef := by
    have := hK4.add_posSemidef ((C37_W_psd P.sigma hps pairs F hr1).1.add hdiag)
    convert this using 1
    abel
  refine ⟨hpd, ?_⟩
  rw [← Matrix.isUnit_iff_isUnit_det, show -(prefW P.sigma pairs F + Matrix.of (assignGrid l) + 0) - K⁻¹ =
    -(prefW P.sigma pairs F + Matrix.of (assignGrid l) + 0 + K⁻¹) by abel, IsUnit.neg_iff]
  exact hpd.isUnit

private lemma one_by_one (g : Fin 1 → ℝ) (H : Matrix (Fin 1) (Fin 1) ℝ) : (g ᵥ* H⁻¹) 0 = g 0 / H.det := by
  rw [inv_def, vecMul_smul, Pi.smul_apply, Ring.inverse_eq_inv', adjugate_fin_one, vecMul_one, smul_eq_mul, div_eq_inv_mul]

/-- C111, what happens under a wide prior: for one rated point, as soon as the number the code uses for minus the
second derivative of the log posterior is negative, the update moves the value strictly away from the mode. -/
theorem C111_away (P : ProbitSet) {t : List ℝ} (hT : HasThresholds P.ord t) (ht : t.Pairwise (· < ·))
    (hso : 0 < P.ord.sigma) (heps : 0 < P.ordEps) (k : Nat) (hk : 1 ≤ k ∧ k ≤ t.length + 1)
    {K : Matrix (Fin 1) (Fin 1) ℝ} (hK : K.PosDef)
    {invert : Matrix (Fin 1) (Fin 1) ℝ → Option (Matrix (Fin 1) (Fin 1) ℝ)} (hinv : InvertsInvertible invert)
    (F : Fin 1 → ℝ) (hr2 : OrdInRange t P.ord.sigma [(k, 0)] F) (hr3 : P.ordEps ≤ ordProb t P.ord.sigma k (F 0))
    (hneg : ∀ r, gpDerivatives P (pairsAndRatings [] [(k, 0)]) F = .ok (some r) → r.1 0 0 + K⁻¹ 0 0 < 0)
    (m : Fin 1 → ℝ) (hm : IsOrdMode P.sigma t P.ord.sigma [] [(k, 0)] K m) (hne : F 0 ≠ m 0) :
    ∃ F', findModeUpdate P (pairsAndRatings [] [(k, 0)]) K invert F = .ok (some F') ∧
      (F' 0 < F 0 ∧ F 0 < m 0 ∨ m 0 < F 0 ∧ F 0 < F' 0) := by
  have hy : RatingsValid t [(k, (0 : Fin 1))] := by
    intro p hp
    simp only [List.mem_singleton] at hp
    subst hp
    exact hk
  have hpr : PairsInRange P.sigma ([] : List (IPair 1)) F := by simp [PairsInRange]
  have hg := derivs_eq P hT heps [] [(k, (0 : Fin 1))] hy hr2 (fun p hp => by
    simp only [List.mem_singleton] at hp
    subst hp
    exact hr3)
  have hgr := grad_eq P (t := t) (pairs := []) (y := [(k, (0 : Fin 1))]) (by simp) hpr
  have hn := hneg _ hg
  set r : Derivs 1 := (prefW P.sigma [] F + Matrix.of (assignGrid ([(k, (0 : Fin 1))].map fun p =>
      (p.2, -codeD2 t P.ord.sigma p.1 (F p.2)))) + 0,
    prefDerv P.sigma [] F + assignVec ([(k, (0 : Fin 1))].map fun p => (p.2, ordD t P.ord.sigma p.1 (F p.2))) + 0,
    prefLogLik P.sigma [] F + ordLogLik t P.ord.sigma [(k, 0)] F + 0) with hrdef
  have hgr' : r.2.1 = pairGradV P.sigma [] F + ordGradV t P.ord.sigma [(k, 0)] F := hgr
  have hdet : (-r.1 - K⁻¹).det = -(r.1 0 0 + K⁻¹ 0 0) := by
    rw [det_fin_one, Matrix.sub_apply, Matrix.neg_apply]
    ring
  have hunit : IsUnit (-r.1 - K⁻¹).det := by
    rw [hdet, isUnit_iff_ne_zero]
    linarith
  have hL := both_concave P.sigma ht hso [] [(k, (0 : Fin 1))] hy
  have hgF := both_gradient P.sigma ht hso [] [(k, (0 : Fin 1))] hy F
  rw [← hgr'] at hgF
  -- the gradient at `F` points towards the mode
  have hgm : 0 < (r.2.1 - K⁻¹ *ᵥ F) 0 * (m 0 - F 0) := by
    have h1 := concave_tangent hL hgF m
    have h2 := strong_max hK hL (F := F) ((isOrdMode_iff hK).1 hm)
    have hKi : 0 < K⁻¹ 0 0 := hK.inv.diag_pos
    simp only [dotProduct, mulVec, Fin.sum_univ_one, Pi.sub_apply] at h1 h2 ⊢
    have h3 : 0 < K⁻¹ 0 0 * (F 0 - m 0) ^ 2 := mul_pos hKi (by
      have := sub_ne_zero.2 hne
      positivity)
    nlinarith
  have hdir : descentDir (r.2.1 - K⁻¹ *ᵥ F) (-r.1 - K⁻¹) invert 0 =
      (r.2.1 - K⁻¹ *ᵥ F) 0 / -(r.1 0 0 + K⁻¹ 0 0) := by
    simp only [descentDir, hinv _ hunit]
    rw [← hdet, one_by_one]
  set d := descentDir (r.2.1 - K⁻¹ *ᵥ F) (-r.1 - K⁻¹) invert with hd
  set q : ℝ → WithBot ℝ := fun lam => lossValue (likliF P (pairsAndRatings [] [(k, 0)]) K (F - lam • d)) with hq
  refine ⟨F - binarySearch q 3 0 (3 / 2) • d, by
    simp only [findModeUpdate, hg, bind, Except.bind, modeGradHess, newtonUpdate, pure, Except.pure]
    rfl, ?_⟩
  have hl : (3 / 32 : ℝ) ≤ binarySearch q 3 0 (3 / 2) := by
    obtain ⟨a, b, h1, h2, h3, h4, h5, -⟩ := C28_interval q 3 0 (3 / 2 : ℝ) (by norm_num)
    rw [h5]
    norm_num at h4
    linarith
  simp only [Pi.sub_apply, Pi.smul_apply, smul_eq_mul, hdir] at hgm ⊢
  generalize binarySearch q 3 0 (3 / 2) = lam at *
  generalize r.2.1 0 - (K⁻¹ *ᵥ F) 0 = g at *
  have hlam : 0 < lam := by linarith
  have hH : 0 < -(r.1 0 0 + K⁻¹ 0 0) := by linarith
  rcases lt_or_gt_of_ne hne with hlt | hgt
  · have hg0 : 0 < g := pos_of_mul_pos_left hgm (by linarith)
    have := mul_pos hlam (div_pos hg0 hH)
    exact .inl ⟨by linarith, hlt⟩
  · have hg0 : g < 0 := by
      by_contra hc
      push Not at hc
      have := mul_nonneg hc (show 0 ≤ F 0 - m 0 by linarith)
      linarith
    have := mul_pos hlam (div_pos (neg_pos.2 hg0) hH)
    rw [neg_div, mul_neg] at this
    exact .inr ⟨hgt, by linarith⟩

private lemma pull_bounds {f : ℝ} (h0 : 0 ≤ f) (h1 : f ≤ 1) : 0.19 < phi f / Phi f ∧ phi f / Phi f < 0.8 := by
  have hb := phi_zero_bounds
  have ha : phi f ≤ phi 0 := phi_le_zero f
  have hP : (1 / 2 : ℝ) ≤ Phi f := by rw [← Phi_zero]; exact Phi_strictMono.monotone h0
  have hP1 := Phi_lt_one f
  have hl : 1 / 2 * phi 0 ≤ phi f := by
    have e : phi f = Real.exp (-f ^ 2 / 2) * phi 0 := by simp [phi]; ring
    rw [e]
    have := Real.add_one_le_exp (-f ^ 2 / 2)
    have : (1 / 2 : ℝ) ≤ Real.exp (-f ^ 2 / 2) := by nlinarith
    exact mul_le_mul_of_nonneg_right this (phi_pos 0).le
  constructor
  · rw [lt_div_iff₀ (by linarith)]
    nlinarith
  · rw [div_lt_iff₀ (by linarith)]
    nlinarith

/-- C111, the failure under a wide prior: one point, rated with the better of two ratings (noise 1, threshold 0), prior
variance 100. Whatever start value in `[0, 1]` `find_mode` draws, its first update lowers the value, although the mode
is above it. -/
theorem C111_wide_prior_counterexample (P : ProbitSet) (hP : P.ord = ⟨1, 2, [.neg, .fin 0, .pos]⟩) (heps : 0 < P.ordEps)
    (heps2 : P.ordEps ≤ 1 / 2) {invert : Matrix (Fin 1) (Fin 1) ℝ → Option (Matrix (Fin 1) (Fin 1) ℝ)}
    (hinv : InvertsInvertible invert) (F : Fin 1 → ℝ) (h0 : 0 ≤ F 0) (h1 : F 0 ≤ 1) :
    ∃ F' m, findModeUpdate P (pairsAndRatings [] [(2, 0)]) ((100 : ℝ) • (1 : Matrix (Fin 1) (Fin 1) ℝ)) invert F =
        .ok (some F') ∧
      IsOrdMode P.sigma [0] 1 [] [(2, 0)] ((100 : ℝ) • (1 : Matrix (Fin 1) (Fin 1) ℝ)) m ∧ F' 0 < F 0 ∧ F 0 < m 0 := by
  have hT : HasThresholds P.ord [0] := by rw [hP]; exact ⟨rfl, rfl⟩
  have ht : ([0] : List ℝ).Pairwise (· < ·) := by simp
  have hso : P.ord.sigma = 1 := by rw [hP]
  have hso0 : 0 < P.ord.sigma := by rw [hso]; norm_num
  have hK : ((100 : ℝ) • (1 : Matrix (Fin 1) (Fin 1) ℝ)).PosDef := PosDef.one.smul (by norm_num)
  have hKi : ((100 : ℝ) • (1 : Matrix (Fin 1) (Fin 1) ℝ))⁻¹ = (1 / 100 : ℝ) • 1 := by
    refine inv_eq_right_inv ?_
    rw [smul_mul_smul_comm, one_mul]
    norm_num
  have hy : RatingsValid [0] [(2, (0 : Fin 1))] := by simp [RatingsValid]
  have hprob : ∀ f, ordProb [0] 1 2 f = Phi f := by
    intro f
    have : Phi (0 - f) = 1 - Phi f := by rw [zero_sub, Phi_neg]
    simp only [ordProb, ordCum]
    simp [Phi_neg]
  have hP2 : (1 / 2 : ℝ) ≤ Phi (F 0) := by rw [← Phi_zero]; exact Phi_strictMono.monotone h0
  have hr2 : OrdInRange [0] P.ord.sigma [(2, (0 : Fin 1))] F := by
    intro p hp k r hk hr
    simp only [List.mem_singleton] at hp
    subst hp
    rcases k with _ | k
    · simp only [List.getElem?_cons_zero, Option.some.injEq] at hr
      subst hr
      rw [hso]
      constructor <;> linarith
    · simp at hr
  have hr3 : P.ordEps ≤ ordProb [0] P.ord.sigma 2 (F 0) := by
    rw [hso, hprob]
    linarith
  obtain ⟨m, hm, -⟩ := C111_mode_unique P.sigma ht (so := 1) one_pos [] [(2, (0 : Fin 1))] hy hK
  obtain ⟨hb1, hb2⟩ := pull_bounds h0 h1
  have hD : ordD [0] 1 2 (F 0) = phi (F 0) / Phi (F 0) := by
    unfold ordD
    rw [hprob]
    simp [ordP, phi_neg]
  have hC : -codeD2 [0] 1 2 (F 0) = (phi (F 0) / Phi (F 0)) ^ 2 - phi (F 0) / Phi (F 0) := by
    unfold codeD2
    rw [hD, hprob]
    simp [ordP, phi_neg, neg_div]
    ring
  -- the mode is above
  have hlt : F 0 < m 0 := by
    have hfix := congrFun ((mode_fixed ht one_pos hy hK).1 hm) 0
    have e : ordD [0] 1 2 (m 0) = phi (m 0) / Phi (m 0) := by
      unfold ordD
      rw [hprob]
      simp [ordP, phi_neg]
    simp [mulVec, dotProduct, pairGradV, ordGradV, e] at hfix
    by_contra hc
    push Not at hc
    have hpos : 0 < phi (m 0) / Phi (m 0) := div_pos (phi_pos _) (Phi_pos _)
    have := (pull_bounds (f := m 0) (by linarith) (by linarith)).1
    linarith
  have hm' : IsOrdMode P.sigma [0] P.ord.sigma [] [(2, 0)] ((100 : ℝ) • (1 : Matrix (Fin 1) (Fin 1) ℝ)) m := by
    rw [hso]; exact hm
  obtain ⟨F', hF', hd⟩ := C111_away P hT ht hso0 heps 2 ⟨by omega, by simp⟩ hK hinv F hr2 hr3 (fun r hr => by
    have hg := derivs_eq P hT heps [] [(2, (0 : Fin 1))] hy hr2 (fun p hp => by
      simp only [List.mem_singleton] at hp
      subst hp
      exact hr3)
    rw [hr] at hg
    rw [Option.some.inj (Except.ok.inj hg), hKi, hso]
    have e : (prefW P.sigma [] F + Matrix.of (assignGrid ([(2, (0 : Fin 1))].map fun p =>
        (p.2, -codeD2 [0] 1 p.1 (F p.2)))) + 0 : Matrix (Fin 1) (Fin 1) ℝ) 0 0 = -codeD2 [0] 1 2 (F 0) := by
      have e1 : prefW P.sigma [] F 0 0 = 0 := by rw [prefW_apply]; simp
      rw [Matrix.add_apply, Matrix.add_apply, e1, of_apply, assignGrid_eq]
      simp [lastValue]
    simp only
    rw [e, hC, Matrix.smul_apply, one_apply_eq, smul_eq_mul, mul_one]
    nlinarith) m hm' hlt.ne
  refine ⟨F', m, hF', hm, ?_⟩
  rcases hd with ⟨h2, -⟩ | ⟨h2, -⟩
  · exact ⟨h2, hlt⟩
  · linarith

/-- Settings of the next example: one point rated 2 of 3, thresholds -1 and 1. -/
private noncomputable def exSet : ProbitSet :=
  ⟨1, ⟨1, 3, [.neg, .fin (-1), .fin 1, .pos]⟩, Phi (1 / 2) - Phi (-1 / 2), 1, 80, 1 / 1000⟩

private lemma exSet_near {G : Fin 1 → ℝ} (hG : |G 0| ≤ 1 / 5000) :
    OrdInRange [-1, 1] 1 [(2, (0 : Fin 1))] G ∧ exSet.ordEps ≤ ordProb [-1, 1] 1 2 (G 0) := by
  have := abs_le.1 hG
  constructor
  · intro p hp k r hk hr
    simp only [List.mem_singleton] at hp
    subst hp
    rcases k with _ | _ | k
    · simp at hr; subst hr; norm_num; constructor <;> linarith
    · simp at hr; subst hr; norm_num; constructor <;> linarith
    · simp at hr
  · simp only [exSet, ordProb, ordCum]
    norm_num
    have a : Phi (1 / 2) ≤ Phi (1 - G 0) := Phi_strictMono.monotone (by linarith)
    have b : Phi (-1 - G 0) ≤ Phi (-(1 / 2)) := Phi_strictMono.monotone (by linarith)
    linarith

/-- A fit to which `C111_converged` applies: the start value 0 is the mode already. -/
example {invert : Matrix (Fin 1) (Fin 1) ℝ → Option (Matrix (Fin 1) (Fin 1) ℝ)} (hinv : InvertsInvertible invert) :
    HasThresholds exSet.ord [-1, 1] ∧ 0 < exSet.ordEps ∧ RatingsValid [-1, 1] [(2, (0 : Fin 1))] ∧
    (∃ D, findMode (n := 0) {} exSet (pairsAndRatings [] [(2, 0)]) 1 invert 0 = .ok ⟨some 0, 1, D⟩) ∧
    ∀ G : Fin 1 → ℝ, ‖0 - G‖ ≤ 2 / 10000 → PairsInRange exSet.sigma [] G ∧
      OrdInRange [-1, 1] exSet.ord.sigma [(2, (0 : Fin 1))] G ∧
      (∀ p ∈ [(2, (0 : Fin 1))], exSet.ordEps ≤ ordProb [-1, 1] exSet.ord.sigma p.1 (G p.2)) ∧
      ∀ r, gpDerivatives exSet (pairsAndRatings [] [(2, 0)]) G = .ok (some r) →
        IsUnit (-r.1 - (1 : Matrix (Fin 1) (Fin 1) ℝ)⁻¹).det := by
  have hT : HasThresholds exSet.ord [-1, 1] := ⟨rfl, rfl⟩
  have heps : 0 < exSet.ordEps := sub_pos.2 (Phi_strictMono (by norm_num))
  have hy : RatingsValid [-1, 1] [(2, (0 : Fin 1))] := by simp [RatingsValid]
  have hone : ∀ G : Fin 1 → ℝ, exSet.ordEps ≤ ordProb [-1, 1] 1 2 (G 0) →
      ∀ p ∈ [(2, (0 : Fin 1))], exSet.ordEps ≤ ordProb [-1, 1] exSet.ord.sigma p.1 (G p.2) := by
    intro G h p hp
    simp only [List.mem_singleton] at hp
    subst hp
    exact h
  refine ⟨hT, heps, hy, ?_, ?_⟩
  · classical
    have hgo : (open Classical in decide (1 : Matrix (Fin 1) (Fin 1) ℝ).PosDef) = true := decide_eq_true PosDef.one
    obtain ⟨hn1, hn2⟩ := exSet_near (G := 0) (by norm_num)
    have hg := derivs_eq exSet hT heps [] [(2, (0 : Fin 1))] hy (F := 0) hn1 (hone 0 hn2)
    rw [grad_eq exSet (t := [-1, 1]) (pairs := []) (y := [(2, (0 : Fin 1))]) (by simp) (by simp [PairsInRange])] at hg
    have hz : pairGradV exSet.sigma [] (0 : Fin 1 → ℝ) + ordGradV [-1, 1] exSet.ord.sigma [(2, (0 : Fin 1))] 0 = 0 := by
      funext i
      simp [pairGradV, ordGradV, ordD, ordP, exSet, phi_neg]
    rw [hz] at hg
    have hu : findModeUpdate exSet (pairsAndRatings [] [(2, 0)]) 1 invert (0 : Fin 1 → ℝ) = .ok (some 0) := by
      have hd : ∀ H, descentDir (0 : Fin 1 → ℝ) H invert = 0 := by
        intro H
        unfold descentDir
        split <;> simp
      simp only [findModeUpdate, hg, bind, Except.bind, modeGradHess, newtonUpdate, pure, Except.pure, mulVec_zero,
        sub_zero, hd, smul_zero]
    have hstep : findModeStep (n := 0) {} exSet (pairsAndRatings [] [(2, 0)]) 1 invert (some 0) = .ok (some 0, false) := by
      simp only [findModeStep, hu, Except.map, Option.bind_some, normalizeIterate, Bool.false_eq_true, if_false, sub_self,
        norm_zero]
      norm_num
    obtain ⟨r, hr⟩ : ∃ r, gpDerivatives exSet (pairsAndRatings [] [(2, 0)]) (0 : Fin 1 → ℝ) = .ok r := ⟨_, hg⟩
    refine ⟨r, ?_⟩
    unfold findMode
    rw [hgo]
    simp [findModeLoop, hstep, bind, Except.bind, hr, Except.map]
  · intro G hG
    have hG0 : |G 0| ≤ 1 / 5000 := by
      have := (norm_le_pi_norm (0 - G) 0).trans hG
      simp only [Pi.sub_apply, Pi.zero_apply, zero_sub, norm_neg, Real.norm_eq_abs] at this
      linarith
    obtain ⟨hn1, hn2⟩ := exSet_near hG0
    have hpr : PairsInRange exSet.sigma ([] : List (IPair 1)) G := by simp [PairsInRange]
    refine ⟨hpr, hn1, hone G hn2, fun r hr => ?_⟩
    obtain ⟨r', hr', -, hdet⟩ := C111_narrow_prior exSet (by norm_num [exSet]) hT (by norm_num [exSet]) heps []
      [(2, (0 : Fin 1))] hy (K := 1) (by
        have : (1 : Matrix (Fin 1) (Fin 1) ℝ)⁻¹ - (1 / (4 * exSet.ord.sigma ^ 2)) • 1 = (3 / 4 : ℝ) • 1 := by
          rw [inv_one]
          nth_rewrite 1 [← one_smul ℝ (1 : Matrix (Fin 1) (Fin 1) ℝ)]
          rw [← sub_smul]
          norm_num [exSet]
        rw [this]
        exact PosDef.one.smul (by norm_num)) G hpr hn1 (hone G hn2)
    rw [hr] at hr'
    rw [Option.some.inj (Except.ok.inj hr')]
    exact hdet

/-- Data of `C111_higher`: three ratings, one of them raised from 1 to 3. -/
example : ([-1, 1] : List ℝ).Pairwise (· < ·) ∧ RatingsValid [-1, 1] ([(2, 0)] ++ (1, 1) :: [(3, (2 : Fin 3))]) ∧
    RatingsValid [-1, 1] ([(2, 0)] ++ (3, 1) :: [(3, (2 : Fin 3))]) := by
  refine ⟨by norm_num, by simp [RatingsValid], by simp [RatingsValid]⟩

/-- The settings of `C111_wide_prior_counterexample` are those of `OrdinalProbit` with two ratings. -/
example : OrdHyper.init 1 0 2 = .ok (⟨1, 2, [.neg, .fin 0, .pos]⟩ : OrdHyper ℝ) := by
  simp [OrdHyper.init, OrdHyper.setHyper, OrdHyper.setB, linspace0]

end Lop.Props
