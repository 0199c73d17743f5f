import Verif.Props.FindMode
import Verif.Proofs.ModeRate

/-! # C97: the rate at which `find_mode` converges -/

namespace Lop.Props

open Lop.Spec Lop Matrix

variable {n : Nat}

/-- One update takes away at least 2/9 of the distance to the least cost. -/
private lemma update_rate (P : ProbitSet) (hs : P.sigma ≠ 0) (y : List (IPair n)) {K : Matrix (Fin n) (Fin n) ℝ}
    (hK : K.PosDef) (hsig : pairSignal P.sigma y K ≤ 1)
    {invert : Matrix (Fin n) (Fin n) ℝ → Option (Matrix (Fin n) (Fin n) ℝ)}
    (hinv : InvertsInvertible invert) {F : Fin n → ℝ} {A E : ℝ} (hA : modeCost P.sigma y K F ≤ A)
    (hr : ∀ G, G ⬝ᵥ (K⁻¹ *ᵥ G) ≤ 125 * A → PairsInRange P.sigma y G)
    (hE : ∀ G, modeCost P.sigma y K F ≤ modeCost P.sigma y K G + E) :
    ∃ F', findModeUpdate P (onlyPairs y) K invert F = .ok (some F') ∧
      modeCost P.sigma y K F' ≤ modeCost P.sigma y K F ∧
      (∀ G, modeCost P.sigma y K F' ≤ modeCost P.sigma y K G + 7 / 9 * E) ∧
      ∀ i, (F' i - F i) ^ 2 ≤ 8 * K i i * E := by
  obtain ⟨hc0, hc2⟩ := modeCost_nonneg P.sigma y hK F
  have hr0 : PairsInRange P.sigma y F := hr F (by linarith)
  obtain ⟨s, lam, hl0, hl1, hu, hgain, hlam, hHs⟩ :=
    mode_update_gain P hs y hK (by linarith) hinv hA hr
  have hpos : ∀ x : Fin n → ℝ, 0 ≤ x ⬝ᵥ (K⁻¹ *ᵥ x) := fun x => by
    have := hK.inv.posSemidef.dotProduct_mulVec_nonneg x
    simpa only [star_trivial] using this
  have hzsum : ∀ x : Fin n → ℝ, (y.map fun p => pairZ P.sigma x p ^ 2).sum ≤ x ⬝ᵥ (K⁻¹ *ᵥ x) := by
    intro x
    have := mul_le_mul_of_nonneg_right hsig (hpos x)
    linarith [pairZ_sum_le (sigma := P.sigma) y hK x]
  have hW : ∀ x : Fin n → ℝ, x ⬝ᵥ (prefW P.sigma y F *ᵥ x) ≤ x ⬝ᵥ (K⁻¹ *ᵥ x) := fun x =>
    (prefW_quad_le y (pairs_zk_range hr0) x).trans (hzsum x)
  have hWpsd := (C37_W_psd P.sigma hs y F hr0).1
  have hWpos : ∀ x : Fin n → ℝ, 0 ≤ x ⬝ᵥ (prefW P.sigma y F *ᵥ x) := fun x => by
    have := hWpsd.dotProduct_mulVec_nonneg x
    simpa only [star_trivial] using this
  set q := s ⬝ᵥ (K⁻¹ *ᵥ s) with hqdef
  set D : ℝ → ℝ := fun x => (y.map fun p => mratio (pairZ P.sigma (F + x • s) p) * pairZ P.sigma s p).sum -
    (F + x • s) ⬝ᵥ (K⁻¹ *ᵥ s) with hD
  set g : ℝ → ℝ := fun x => -modeCost P.sigma y K (F + x • s) with hg
  have hcross : ∀ G x : Fin n → ℝ, x ⬝ᵥ (K⁻¹ *ᵥ G) = G ⬝ᵥ (K⁻¹ *ᵥ x) := by
    intro G x
    rw [dotProduct_mulVec, ← mulVec_transpose, posDef_transpose hK.inv, dotProduct_comm]
  have hquad : ∀ (G x : Fin n → ℝ) (h : ℝ), (G + h • x) ⬝ᵥ (K⁻¹ *ᵥ (G + h • x)) =
      G ⬝ᵥ (K⁻¹ *ᵥ G) + 2 * h * (G ⬝ᵥ (K⁻¹ *ᵥ x)) + h ^ 2 * (x ⬝ᵥ (K⁻¹ *ᵥ x)) := by
    intro G x h
    simp only [mulVec_add, mulVec_smul, dotProduct_add, add_dotProduct, dotProduct_smul, smul_dotProduct, smul_eq_mul,
      hcross G x]
    ring
  have hadd : ∀ x h : ℝ, F + (x + h) • s = (F + x • s) + h • s := fun x h => by rw [add_smul, add_assoc]
  have hup : ∀ x h, g (x + h) ≤ g x + h * D x - h ^ 2 / 2 * q := by
    intro x h
    have h1 := pairLogLik_upper P.sigma y (F + x • s) s h
    have h2 := hquad (F + x • s) s h
    simp only [hg, hD, modeCost, hadd, h2]
    linarith
  have hlo : ∀ x h, g x + h * D x - h ^ 2 * q ≤ g (x + h) := by
    intro x h
    have h1 := pairLogLik_lower P.sigma y (F + x • s) s h
    have h2 := hquad (F + x • s) s h
    have h3 := mul_le_mul_of_nonneg_left (hzsum s) (by positivity : 0 ≤ h ^ 2 / 2)
    simp only [hg, hD, modeCost, hadd, h2]
    linarith
  -- the derivative at the start
  have hD0 : D 0 = s ⬝ᵥ ((K⁻¹ + prefW P.sigma y F) *ᵥ s) := by
    rw [hHs, dotProduct_sub, dotProduct_comm s (prefDerv P.sigma y F),
      prefDerv_dot P.sigma y F s (pairs_zk_range hr0), hcross F s]
    simp [hD]
  have hD0' : D 0 = q + s ⬝ᵥ (prefW P.sigma y F *ᵥ s) := by rw [hD0, add_mulVec, dotProduct_add]
  have hD1 : q ≤ D 0 := by linarith [hWpos s]
  have hD2 : D 0 ≤ 2 * q := by linarith [hW s]
  have hg0 : g 0 = -modeCost P.sigma y K F := by simp [hg]
  -- no cost is lower by more than the derivative
  have hH : (K⁻¹ + prefW P.sigma y F).PosDef := hK.inv.add_posSemidef hWpsd
  have hPL : ∀ G, modeCost P.sigma y K F - modeCost P.sigma y K G ≤ D 0 := by
    intro G
    set x := G - F with hx
    have hG : G = F + (1 : ℝ) • x := by rw [hx, one_smul, add_sub_cancel]
    have h1 := pairLogLik_upper P.sigma y F x 1
    have h2 := hquad F x 1
    have h3 : s ⬝ᵥ ((K⁻¹ + prefW P.sigma y F) *ᵥ x) =
        (y.map fun p => mratio (pairZ P.sigma F p) * pairZ P.sigma x p).sum - F ⬝ᵥ (K⁻¹ *ᵥ x) := by
      rw [dotProduct_mulVec, ← mulVec_transpose, posDef_transpose hH, hHs, sub_dotProduct,
        prefDerv_dot P.sigma y F x (pairs_zk_range hr0), dotProduct_comm (K⁻¹ *ᵥ F) x, hcross F x]
    have h4 : (s ⬝ᵥ ((K⁻¹ + prefW P.sigma y F) *ᵥ x)) ^ 2 ≤ D 0 * (x ⬝ᵥ ((K⁻¹ + prefW P.sigma y F) *ᵥ x)) := by
      have := cauchy_posDef hH.inv x ((K⁻¹ + prefW P.sigma y F) *ᵥ s)
      rw [nonsing_inv_nonsing_inv _ ((Matrix.isUnit_iff_isUnit_det _).1 hH.isUnit), mulVec_mulVec,
        nonsing_inv_mul _ ((Matrix.isUnit_iff_isUnit_det _).1 hH.isUnit), one_mulVec] at this
      rw [hD0]
      have e : ((K⁻¹ + prefW P.sigma y F) *ᵥ s) ⬝ᵥ x = s ⬝ᵥ ((K⁻¹ + prefW P.sigma y F) *ᵥ x) := by
        rw [dotProduct_mulVec, ← mulVec_transpose, posDef_transpose hH]
      rw [e, dotProduct_comm ((K⁻¹ + prefW P.sigma y F) *ᵥ s) s] at this
      exact this
    have h5 : x ⬝ᵥ ((K⁻¹ + prefW P.sigma y F) *ᵥ x) ≤ 2 * (x ⬝ᵥ (K⁻¹ *ᵥ x)) := by
      rw [add_mulVec, dotProduct_add]
      linarith [hW x]
    have h6 : modeCost P.sigma y K F - modeCost P.sigma y K G ≤
        s ⬝ᵥ ((K⁻¹ + prefW P.sigma y F) *ᵥ x) - 1 / 2 * (x ⬝ᵥ (K⁻¹ *ᵥ x)) := by
      rw [h3, hG]
      simp only [modeCost, h2]
      linarith
    generalize s ⬝ᵥ ((K⁻¹ + prefW P.sigma y F) *ᵥ x) = u at *
    have h7 := hpos x
    generalize x ⬝ᵥ (K⁻¹ *ᵥ x) = r at *
    have h8 : 0 ≤ D 0 := (hpos s).trans hD1
    generalize D 0 = d at *
    have h9 : u ^ 2 ≤ (d + r / 2) ^ 2 := by
      have := mul_le_mul_of_nonneg_left h5 h8
      nlinarith [sq_nonneg (d - r / 2)]
    have := abs_le_of_sq_le_sq' h9 (by linarith)
    linarith
  have hgain2 : g 0 + 2 / 9 * D 0 ≤ g lam := by
    rcases (hpos s).eq_or_lt with h | h
    · have hq0 : q = 0 := h.symm
      have hd0 : D 0 = 0 := by linarith
      rw [hd0, hg0]
      simp only [hg]
      linarith
    · rw [hlam]
      exact line_rate h hup hlo hD1 hD2
  refine ⟨F + lam • s, hu, by linarith [hpos s], fun G => ?_, fun i => ?_⟩
  · have h1 := hPL G
    have h2 := hE G
    rw [hg0] at hgain2
    simp only [hg] at hgain2
    linarith
  · have h1 := hlo 0 (1 / 2)
    have h2 := hE (F + (1 / 2 : ℝ) • s)
    rw [hg0, zero_add] at h1
    simp only [hg] at h1
    have hqE : q ≤ 4 * E := by linarith
    have h3 := entry_sq_le hK s i
    have h4 : lam ^ 2 ≤ 2 := by nlinarith
    have h5 : 0 < K i i := hK.diag_pos
    have e : (F + lam • s) i - F i = lam * s i := by simp
    rw [e, mul_pow]
    calc lam ^ 2 * s i ^ 2 ≤ 2 * (K i i * q) := mul_le_mul h4 h3 (sq_nonneg _) (by norm_num)
      _ ≤ 2 * (K i i * (4 * E)) := by gcongr
      _ = _ := by ring

/-- C97, rate of convergence: if the signal-to-noise ratio of the pair labels (`pairSignal`) is at most 1 and nothing
is clipped where the iteration goes, every pass of `find_mode` leaves at most 7/9 of the excess cost. What is stored
after `k` passes is within `√(2 K i i A (7/9)^k)` of the posterior mode, `A` the cost of the start, whether the loop
converged or ran out of passes. It converges within `T` passes as soon as `8 v A (7/9)^(T-1) ≤ delta_f²`. -/
theorem C97_geometric (o : ModeOpts) (ho : o.normalizeGp = false) (hδ : 0 < o.deltaF) (P : ProbitSet)
    (hs : P.sigma ≠ 0) (y : List (IPair (n + 1))) {K : Matrix (Fin (n + 1)) (Fin (n + 1)) ℝ} (hK : K.PosDef)
    (hsig : pairSignal P.sigma y K ≤ 1) {v : ℝ} (hv : ∀ i, K i i ≤ v)
    {invert : Matrix (Fin (n + 1)) (Fin (n + 1)) ℝ → Option (Matrix (Fin (n + 1)) (Fin (n + 1)) ℝ)}
    (hinv : InvertsInvertible invert) (F0 : Fin (n + 1) → ℝ)
    (hr : ∀ G, G ⬝ᵥ (K⁻¹ *ᵥ G) ≤ 125 * modeCost P.sigma y K F0 → PairsInRange P.sigma y G) :
    ∃ F' k, findMode o P (onlyPairs y) K invert F0 = .ok ⟨some F', k, some (prefDerivatives P.sigma y F')⟩ ∧
      1 ≤ k ∧ k ≤ o.maxloops + 1 ∧
      (∀ m, IsMode P.sigma y K m → ∀ i,
        (F' i - m i) ^ 2 ≤ 2 * K i i * (modeCost P.sigma y K F0 * (7 / 9) ^ k)) ∧
      (k ≤ o.maxloops → ∀ m, IsMode P.sigma y K m → ∀ i, |F' i - m i| ≤ modeErrorFactor P.sigma y K i * o.deltaF) ∧
      ∀ T, 1 ≤ T → 8 * v * modeCost P.sigma y K F0 * (7 / 9) ^ (T - 1) ≤ o.deltaF ^ 2 → k ≤ T := by
  classical
  set A := modeCost P.sigma y K F0 with hAdef
  have hA0 : 0 ≤ A := (modeCost_nonneg P.sigma y hK F0).1
  have hder : ∀ F, gpDerivatives P (onlyPairs y) F = .ok (some (prefDerivatives P.sigma y F)) := by
    intro F
    simp [gpDerivatives, onlyPairs, ordPart, pairPart, absPart, Except.map, prefDerivatives]
  have hloop : ∀ fuel F (loops : Nat), modeCost P.sigma y K F ≤ A →
      (∀ G, modeCost P.sigma y K F ≤ modeCost P.sigma y K G + A * (7 / 9) ^ loops) → loops ≤ o.maxloops →
      o.maxloops + 2 ≤ fuel + loops →
      ∃ F1 F' k, findModeLoop (findModeStep o P (onlyPairs y) K invert) o.maxloops fuel (some F) true loops =
        some (.ok (some F', k)) ∧ loops < k ∧ k ≤ o.maxloops + 1 ∧
        (∀ G, modeCost P.sigma y K F' ≤ modeCost P.sigma y K G + A * (7 / 9) ^ k) ∧
        (k ≤ o.maxloops → modeCost P.sigma y K F1 ≤ A ∧ findModeUpdate P (onlyPairs y) K invert F1 = .ok (some F') ∧
          ‖F' - F1‖ ≤ o.deltaF) ∧
        ∀ T, loops < T → 8 * v * A * (7 / 9) ^ (T - 1) ≤ o.deltaF ^ 2 → k ≤ T := by
    intro fuel
    induction fuel with
    | zero =>
      intro F loops _ _ h1 h2
      omega
    | succ fuel ih =>
      intro F loops hFA hE hl hfuel
      obtain ⟨F', hu, hle, hE', hmove⟩ := update_rate P hs y hK hsig hinv hFA hr hE
      have hE'' : ∀ G, modeCost P.sigma y K F' ≤ modeCost P.sigma y K G + A * (7 / 9) ^ (loops + 1) := by
        intro G
        refine (hE' G).trans (le_of_eq ?_)
        rw [pow_succ]
        ring
      have hst : findModeStep o P (onlyPairs y) K invert (some F) =
          .ok (some F', decide (o.deltaF < ‖F' - F‖)) := by
        simp [findModeStep, hu, Except.map, normalizeIterate, ho]
      unfold findModeLoop
      simp only [if_true, hst]
      by_cases hlast : loops + 1 > o.maxloops
      · rw [if_pos hlast]
        exact ⟨F, F', loops + 1, rfl, by omega, by omega, hE'', fun h => by omega, fun T h _ => by omega⟩
      rw [if_neg hlast]
      by_cases hgo : o.deltaF < ‖F' - F‖
      · rw [decide_eq_true hgo]
        obtain ⟨F1, F2, k, b1, b2, b3, b4, b5, b6⟩ := ih F' (loops + 1) (hle.trans hFA) hE'' (by omega) (by omega)
        refine ⟨F1, F2, k, b1, by omega, b3, b4, b5, fun T hT hTδ => ?_⟩
        rcases Nat.lt_or_ge (loops + 1) T with h | h
        · exact b6 T h hTδ
        · exfalso
          obtain rfl : T = loops + 1 := by omega
          rw [Nat.add_sub_cancel] at hTδ
          refine absurd hgo (not_lt.2 ((pi_norm_le_iff_of_nonneg hδ.le).2 fun i => ?_))
          rw [Real.norm_eq_abs]
          refine abs_le_of_sq_le_sq (le_trans ?_ hTδ) hδ.le
          have h1 := hmove i
          rw [Pi.sub_apply]
          refine h1.trans ?_
          have h2 : 0 ≤ A * (7 / 9 : ℝ) ^ loops := by positivity
          have h3 := mul_le_mul_of_nonneg_right (hv i) h2
          linarith
      · rw [decide_eq_false hgo]
        refine ⟨F, F', loops + 1, ?_, by omega, by omega, hE'', fun _ => ⟨hFA, hu, not_lt.1 hgo⟩, fun T h _ => by omega⟩
        cases fuel with
        | zero => omega
        | succ fuel => simp [findModeLoop]
  obtain ⟨F1, F', k, b1, b2, b3, b4, b5, b6⟩ := hloop (o.maxloops + 2) F0 0 le_rfl (fun G => by
    have := (modeCost_nonneg P.sigma y hK G).1
    simp only [pow_zero, mul_one, ← hAdef]
    linarith) (by omega) (by omega)
  have hgo : (open Classical in decide K.PosDef) = true := decide_eq_true hK
  refine ⟨F', k, ?_, b2, b3, fun m hm i => ?_, fun hk m hm i => ?_, fun T hT => b6 T hT⟩
  · unfold findMode
    rw [hgo]
    simp only [b1, bind, Except.bind, hder, Except.map]
  · have h1 := strong_max hK (C37_concave P.sigma y) (F := F') ((isMode_iff hK).1 hm)
    have h2 := b4 m
    have h3 := entry_sq_le hK (F' - m) i
    rw [Pi.sub_apply] at h3
    have h4 : (F' - m) ⬝ᵥ (K⁻¹ *ᵥ (F' - m)) ≤ 2 * (A * (7 / 9) ^ k) := by
      simp only [modeCost] at h2
      linarith
    calc (F' i - m i) ^ 2 ≤ K i i * ((F' - m) ⬝ᵥ (K⁻¹ *ᵥ (F' - m))) := h3
      _ ≤ K i i * (2 * (A * (7 / 9) ^ k)) := mul_le_mul_of_nonneg_left h4 hK.diag_pos.le
      _ = _ := by ring
  · obtain ⟨c1, c2, c3⟩ := b5 hk
    refine near_mode_fit P hs y hK hinv c2 c3 (hr F1 ?_) hm i
    have := modeCost_nonneg P.sigma y hK F1
    linarith

/-- C97, the default settings (100 passes, tolerance 0.0002): for every start of cost at most 7 and prior variances `v`
with `v` times the cost of the start at most 300, `find_mode` converges within its 100 passes, and the stored values are
within `modeErrorFactor / 5000` of the posterior mode. -/
theorem C97_default_converges (P : ProbitSet) (hs : P.sigma ≠ 0) (y : List (IPair (n + 1)))
    {K : Matrix (Fin (n + 1)) (Fin (n + 1)) ℝ} (hK : K.PosDef) (hsig : pairSignal P.sigma y K ≤ 1) {v : ℝ}
    (hv : ∀ i, K i i ≤ v)
    {invert : Matrix (Fin (n + 1)) (Fin (n + 1)) ℝ → Option (Matrix (Fin (n + 1)) (Fin (n + 1)) ℝ)}
    (hinv : InvertsInvertible invert) (F0 : Fin (n + 1) → ℝ) (hA : modeCost P.sigma y K F0 ≤ 7)
    (hvA : v * modeCost P.sigma y K F0 ≤ 300) :
    ∃ F' k, findMode {} P (onlyPairs y) K invert F0 = .ok ⟨some F', k, some (prefDerivatives P.sigma y F')⟩ ∧
      k ≤ 100 ∧ ∀ m, IsMode P.sigma y K m → ∀ i, |F' i - m i| ≤ modeErrorFactor P.sigma y K i / 5000 := by
  have hA0 := (modeCost_nonneg P.sigma y hK F0).1
  have hmul : pairSignal P.sigma y K * modeCost P.sigma y K F0 ≤ 7 :=
    (mul_le_mul_of_nonneg_right hsig hA0).trans (by linarith)
  obtain ⟨F', k, b1, b2, b3, b4, b5, b6⟩ := C97_geometric {} rfl (by norm_num) P hs y hK hsig hv hinv F0
    (C97_unclipped y hK F0 hmul)
  have hk : k ≤ 100 := by
    refine b6 100 (by norm_num) ?_
    have h1 : (7 / 9 : ℝ) ^ (100 - 1) ≤ 1 / 60000000000 := by norm_num
    have h2 : 8 * v * modeCost P.sigma y K F0 ≤ 2400 := by linarith
    have h3 : (0 : ℝ) ≤ (7 / 9) ^ (100 - 1) := by positivity
    calc 8 * v * modeCost P.sigma y K F0 * (7 / 9 : ℝ) ^ (100 - 1) ≤ 2400 * (1 / 60000000000) :=
          mul_le_mul h2 h1 h3 (by norm_num)
      _ ≤ _ := by norm_num
  refine ⟨F', k, b1, hk, fun m hm i => (b5 hk m hm i).trans (le_of_eq ?_)⟩
  show _ * (2 / 10000 : ℝ) = _
  ring

/-- Data to which `C97_geometric` and `C97_default_converges` apply: two points, one comparison, start at 0; the cost is
`log 2`. -/
example : pairSignal 1 [⟨1, 0, 1⟩] (1 : Matrix (Fin 2) (Fin 2) ℝ) ≤ 1 ∧
    modeCost 1 [⟨1, 0, 1⟩] (1 : Matrix (Fin 2) (Fin 2) ℝ) 0 ≤ 7 ∧
    (1 : ℝ) * modeCost 1 [⟨1, 0, 1⟩] (1 : Matrix (Fin 2) (Fin 2) ℝ) 0 ≤ 300 := by
  have h := Real.log_two_lt_d9
  have e : modeCost 1 [⟨1, 0, 1⟩] (1 : Matrix (Fin 2) (Fin 2) ℝ) 0 = Real.log 2 := by
    simp [modeCost, pairLogLik, pairZ, Phi_zero]
  rw [e]
  refine ⟨by norm_num [pairSignal], by linarith, by linarith⟩

end Lop.Props
