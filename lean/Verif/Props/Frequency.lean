import Verif.Proofs.Frequency
import Verif.Proofs.AgainOther
import Verif.Props.FindMode
import Verif.Props.PrefProbit

/-! # C120: with many answers to one question the fitted choice probability is the share of the answers -/

namespace Lop.Props

open Lop.Spec Matrix Topology

variable {n d : Nat}

private lemma diffVar_pos {K : Matrix (Fin n) (Fin n) ℝ} (hK : K.PosDef) {u v : Fin n} (huv : u ≠ v) : 0 < diffVar K v u := by
  have hx : (Pi.single v 1 - Pi.single u 1 : Fin n → ℝ) ≠ 0 := by
    intro h
    have := congrFun h v
    simp [huv.symm] at this
  have := hK.dotProduct_mulVec_pos hx
  simp only [star_trivial, mulVec_sub, mulVec_single_one, dotProduct_sub, sub_dotProduct, single_dotProduct, one_mul,
    col_apply] at this
  rw [diffVar]
  linarith

private lemma all_share {u v : Fin n} (huv : u ≠ v) {y : List (IPair n)} (hy : ∀ p ∈ y, AboutPair u v p) (h0 : y ≠ [])
    {sigma : ℝ} (hs : 0 < sigma) {K : Matrix (Fin n) (Fin n) ℝ} (hK : K.PosDef) {m : Fin n → ℝ} (hm : IsMode sigma y K m) :
    let z := (m v - m u) / (Real.sqrt 2 * sigma)
    |Phi z - share v y| ≤ 2 * sigma ^ 2 / (diffVar K v u * y.length) ∧ (0 < z ↔ Phi z < share v y) ∧
      (z < 0 ↔ share v y < Phi z) := by
  intro z
  have hV := diffVar_pos hK huv
  have hN : (0 : ℝ) < y.length := by exact_mod_cast List.length_pos_iff.2 h0
  have hfix := about_mode hs huv hy (favours_counts huv y hy) hK hm
  have e : K v v - K v u - (K u v - K u u) = diffVar K v u := by rw [diffVar]; ring
  rw [e, mul_pow, Real.sq_sqrt (by norm_num)] at hfix
  have hc : 0 < diffVar K v u / (2 * sigma ^ 2) := by positivity
  have hsum : (y.countP fun p => Favours v p : ℝ) + (y.length - y.countP fun p => Favours v p : ℝ) = y.length := by ring
  have := balance_share hc (by rw [hsum]; exact hN) hfix
  rw [hsum] at this
  refine ⟨this.1.trans (le_of_eq ?_), this.2⟩
  field_simp

private lemma allPairs_Phi {sigma : ℝ} {F : Fin n → ℝ} {u v : Fin n} (h : |(F v - F u) / (Real.sqrt 2 * sigma)| ≤ 30) :
    prefAllPairs sigma F v u = Phi ((F v - F u) / (Real.sqrt 2 * sigma)) := by
  obtain ⟨h1, h2⟩ := abs_le.1 h
  have e : (F v - F u) * isqrt2sig sigma = (F v - F u) / (Real.sqrt 2 * sigma) := by
    simp only [isqrt2sig]
    rw [mul_comm sigma]
    ring
  rw [prefAllPairs, e, stdNormCdf_of_mem h1 (by linarith)]

/-- C120: after any number of answers to one question – asked either way round, in any order, with or without other training
points – the choice probability at the posterior mode differs from the share of the answers by at most `2 σ²` divided by the
number of answers and the prior variance of the difference. -/
theorem C120_share {sigma : ℝ} (hs : 0 < sigma) {u v : Fin n} (huv : u ≠ v) {y : List (IPair n)}
    (hy : ∀ p ∈ y, AboutPair u v p) (h0 : y ≠ []) {K : Matrix (Fin n) (Fin n) ℝ} (hK : K.PosDef) {m : Fin n → ℝ}
    (hm : IsMode sigma y K m) (hr : |(m v - m u) / (Real.sqrt 2 * sigma)| ≤ 30) :
    |prefAllPairs sigma m v u - share v y| ≤ 2 * sigma ^ 2 / (diffVar K v u * y.length) := by
  rw [allPairs_Phi hr]
  exact (all_share huv hy h0 hs hK hm).1

/-- C120: the prior pulls it towards 1/2 and nowhere else: it is strictly between the share and 1/2, or both are 1/2. -/
theorem C120_between {sigma : ℝ} (hs : 0 < sigma) {u v : Fin n} (huv : u ≠ v) {y : List (IPair n)}
    (hy : ∀ p ∈ y, AboutPair u v p) (h0 : y ≠ []) {K : Matrix (Fin n) (Fin n) ℝ} (hK : K.PosDef) {m : Fin n → ℝ}
    (hm : IsMode sigma y K m) (hr : |(m v - m u) / (Real.sqrt 2 * sigma)| ≤ 30) :
    (1 / 2 < share v y ∧ 1 / 2 < prefAllPairs sigma m v u ∧ prefAllPairs sigma m v u < share v y) ∨
    (share v y < 1 / 2 ∧ share v y < prefAllPairs sigma m v u ∧ prefAllPairs sigma m v u < 1 / 2) ∨
    (share v y = 1 / 2 ∧ prefAllPairs sigma m v u = 1 / 2) := by
  rw [allPairs_Phi hr]
  obtain ⟨-, h1, h2⟩ := all_share huv hy h0 hs hK hm
  set z := (m v - m u) / (Real.sqrt 2 * sigma)
  rcases lt_trichotomy z 0 with h | h | h
  · have a1 := h2.1 h
    have a2 : Phi z < Phi 0 := Phi_strictMono h
    rw [Phi_zero] at a2
    exact .inr (.inl ⟨a1.trans a2, a1, a2⟩)
  · have a1 : ¬ Phi z < share v y := fun h3 => (h1.2 h3).ne' h
    have a2 : ¬ share v y < Phi z := fun h3 => (h2.2 h3).ne h
    have a3 : Phi z = share v y := le_antisymm (not_lt.1 a2) (not_lt.1 a1)
    rw [h, Phi_zero] at a3
    exact .inr (.inr ⟨a3.symm, by rw [h, Phi_zero]⟩)
  · have a1 := h1.1 h
    have a2 : Phi 0 < Phi z := Phi_strictMono h
    rw [Phi_zero] at a2
    exact .inl ⟨a2.trans a1, a2, a1⟩

/-- C120: as the number of answers grows and their share tends to `q`, so does the choice probability at the mode. -/
theorem C120_limit {sigma : ℝ} (hs : 0 < sigma) {u v : Fin n} (huv : u ≠ v) {y : Nat → List (IPair n)}
    (hy : ∀ k, ∀ p ∈ y k, AboutPair u v p) (hN : Filter.Tendsto (fun k => (y k).length) .atTop .atTop) {q : ℝ}
    (hq : Filter.Tendsto (fun k => share v (y k)) .atTop (𝓝 q)) {K : Matrix (Fin n) (Fin n) ℝ} (hK : K.PosDef)
    {m : Nat → Fin n → ℝ} (hm : ∀ k, IsMode sigma (y k) K (m k)) :
    Filter.Tendsto (fun k => Phi ((m k v - m k u) / (Real.sqrt 2 * sigma))) .atTop (𝓝 q) := by
  have hV := diffVar_pos hK huv
  have hb : Filter.Tendsto (fun k => 2 * sigma ^ 2 / (diffVar K v u * (y k).length)) .atTop (𝓝 0) :=
    Filter.Tendsto.const_div_atTop (Filter.Tendsto.const_mul_atTop hV (tendsto_natCast_atTop_atTop.comp hN)) _
  have hd : Filter.Tendsto (fun k => Phi ((m k v - m k u) / (Real.sqrt 2 * sigma)) - share v (y k)) .atTop (𝓝 0) := by
    refine squeeze_zero_norm' ?_ hb
    filter_upwards [hN.eventually_ge_atTop 1] with k hk
    have h0 : y k ≠ [] := fun h => by rw [h] at hk; simp at hk
    exact (all_share huv (hy k) h0 hs hK (hm k)).1
  simpa using hd.add hq

/-- C120: what `find_mode` stores, up to its tolerance. -/
theorem C120_stored (o : ModeOpts) (ho : o.normalizeGp = false) (P : ProbitSet) (hs : 0 < P.sigma) {u v : Fin (n + 1)}
    (huv : u ≠ v) {y : List (IPair (n + 1))} (hy : ∀ p ∈ y, AboutPair u v p) (h0 : y ≠ [])
    {K : Matrix (Fin (n + 1)) (Fin (n + 1)) ℝ} (hK : K.PosDef)
    {invert : Matrix (Fin (n + 1)) (Fin (n + 1)) ℝ → Option (Matrix (Fin (n + 1)) (Fin (n + 1)) ℝ)}
    (hinv : InvertsInvertible invert) (F0 F : Fin (n + 1) → ℝ) (k : Nat) (D : Option (Derivs (n + 1)))
    (h : findMode o P (onlyPairs y) K invert F0 = .ok ⟨some F, k, D⟩) (hk : k ≤ o.maxloops)
    (hr : ∀ G, ‖F - G‖ ≤ o.deltaF → PairsInRange P.sigma y G) (hF : |(F v - F u) / (Real.sqrt 2 * P.sigma)| ≤ 30) :
    |prefAllPairs P.sigma F v u - share v y| ≤ 2 * P.sigma ^ 2 / (diffVar K v u * y.length) +
      0.4 * ((modeErrorFactor P.sigma y K u + modeErrorFactor P.sigma y K v) * o.deltaF / (Real.sqrt 2 * P.sigma)) := by
  obtain ⟨m, hm, -⟩ := C97_mode_unique P.sigma y hK
  have hc := C97_converged o ho P hs.ne' y hK hinv F0 F k D h hk hr m hm
  have h1 := (all_share huv hy h0 hs hK hm).1
  have hp : 0 < Real.sqrt 2 * P.sigma := by positivity
  have h2 := Phi_lip ((F v - F u) / (Real.sqrt 2 * P.sigma)) ((m v - m u) / (Real.sqrt 2 * P.sigma))
  have h3 : |(F v - F u) / (Real.sqrt 2 * P.sigma) - (m v - m u) / (Real.sqrt 2 * P.sigma)| ≤
      (modeErrorFactor P.sigma y K u + modeErrorFactor P.sigma y K v) * o.deltaF / (Real.sqrt 2 * P.sigma) := by
    rw [← sub_div, abs_div, abs_of_pos hp]
    refine div_le_div_of_nonneg_right ?_ hp.le
    have a1 := abs_le.1 (hc u)
    have a2 := abs_le.1 (hc v)
    rw [abs_le]
    constructor <;> linarith [a1.1, a1.2, a2.1, a2.2]
  rw [allPairs_Phi hF]
  calc |Phi ((F v - F u) / (Real.sqrt 2 * P.sigma)) - share v y|
      ≤ |Phi ((F v - F u) / (Real.sqrt 2 * P.sigma)) - Phi ((m v - m u) / (Real.sqrt 2 * P.sigma))| +
        |Phi ((m v - m u) / (Real.sqrt 2 * P.sigma)) - share v y| := abs_sub_le _ _ _
    _ ≤ 0.4 * ((modeErrorFactor P.sigma y K u + modeErrorFactor P.sigma y K v) * o.deltaF / (Real.sqrt 2 * P.sigma)) +
        2 * P.sigma ^ 2 / (diffVar K v u * y.length) :=
      add_le_add (h2.trans (mul_le_mul_of_nonneg_left h3 (by norm_num))) h1
    _ = _ := add_comm _ _

/-- C120, linear model: weights of largest likelihood – `PreferenceLinear` has no prior – give the share exactly; with
unanimous answers there are none. -/
theorem C120_linear {sigma : ℝ} (hs : 0 < sigma) {u v : Fin n} (huv : u ≠ v) {y : List (IPair n)}
    (hy : ∀ p ∈ y, AboutPair u v p) (h0 : y ≠ []) {X : Matrix (Fin n) (Fin d) ℝ} (hX : X u ≠ X v) {w : Fin d → ℝ}
    (hw : ∀ w', pairLogLik sigma y (X *ᵥ w') ≤ pairLogLik sigma y (X *ᵥ w)) :
    Phi (((X *ᵥ w) v - (X *ᵥ w) u) / (Real.sqrt 2 * sigma)) = share v y ∧ 0 < share v y ∧ share v y < 1 := by
  set a : ℝ := ((y.countP fun p => Favours v p : Nat) : ℝ) with ha
  set b : ℝ := (y.length : ℝ) - ((y.countP fun p => Favours v p : Nat) : ℝ) with hb
  have hN : (0 : ℝ) < y.length := by exact_mod_cast List.length_pos_iff.2 h0
  have hab : a + b = y.length := by rw [ha, hb]; ring
  have hp : 0 < Real.sqrt 2 * sigma := by positivity
  set Z : (Fin d → ℝ) → ℝ := fun w => ((X *ᵥ w) v - (X *ᵥ w) u) / (Real.sqrt 2 * sigma) with hZ
  have hll : ∀ w, pairLogLik sigma y (X *ᵥ w) = a * Real.log (Phi (Z w)) + b * Real.log (Phi (-Z w)) := by
    intro w
    have := favours_counts huv y hy fun e => Real.log (Phi (e * Z w))
    rw [one_mul, neg_one_mul] at this
    rw [← this, pairLogLik]
    refine congrArg List.sum (List.map_congr_left fun p hp => ?_)
    have := answerSign_diff huv (hy p hp) (X *ᵥ w)
    rw [pairZ, this, hZ, mul_div_assoc]
  set D : Fin d → ℝ := X v - X u with hD
  have hD0 : 0 < D ⬝ᵥ D := by
    refine lt_of_le_of_ne (Finset.sum_nonneg fun i _ => mul_self_nonneg _) fun h => hX ?_
    have : D = 0 := dotProduct_self_eq_zero.1 h.symm
    exact (sub_eq_zero.1 this).symm
  have hZt : ∀ t : ℝ, Z (w + (t * (Real.sqrt 2 * sigma) / (D ⬝ᵥ D)) • D) = Z w + t := by
    intro t
    have e : ∀ x : Fin d → ℝ, (X *ᵥ x) v - (X *ᵥ x) u = D ⬝ᵥ x := fun x => by
      rw [hD, sub_dotProduct]
      rfl
    simp only [hZ, e, dotProduct_add, dotProduct_smul, smul_eq_mul]
    field_simp
  have hmax : IsLocalMax (fun t => a * Real.log (Phi (Z w + t)) + b * Real.log (Phi (-(Z w + t)))) 0 := by
    refine Filter.Eventually.of_forall fun t => ?_
    have := hw (w + (t * (Real.sqrt 2 * sigma) / (D ⬝ᵥ D)) • D)
    rw [hll, hll, hZt] at this
    simpa using this
  have hder : HasDerivAt (fun t => a * Real.log (Phi (Z w + t)) + b * Real.log (Phi (-(Z w + t))))
      (a * mratio (Z w) + b * (mratio (-Z w) * -1)) 0 := by
    have h1 : HasDerivAt (fun t : ℝ => Z w + t) 1 0 := (hasDerivAt_id 0).const_add _
    have h2 : HasDerivAt (fun t => Real.log (Phi (Z w + t))) (mratio (Z w)) 0 := by
      have := ((hasDerivAt_Phi (Z w + 0)).comp 0 h1).log (Phi_pos _).ne'
      simpa [mratio] using this
    have h3 : HasDerivAt (fun t => Real.log (Phi (-(Z w + t)))) (mratio (-Z w) * -1) 0 := by
      have h4 : HasDerivAt (fun t : ℝ => -(Z w + t)) (-1) 0 := h1.neg
      have h5 : HasDerivAt (fun t => Phi (-(Z w + t))) (phi (-(Z w + 0)) * -1) 0 :=
        HasDerivAt.comp (h₂ := Phi) 0 (hasDerivAt_Phi (-(Z w + 0))) h4
      have := h5.log (Phi_pos _).ne'
      simpa [mratio, neg_div] using this
    exact (h2.const_mul a).add (h3.const_mul b)
  have h4 := hmax.hasDerivAt_eq_zero hder
  have h5 : a * mratio (Z w) - b * mratio (-Z w) = 0 := by linarith
  rw [pull_balance, hab] at h5
  have h6 : phi (Z w) * (a - y.length * Phi (Z w)) = 0 := by
    rcases div_eq_zero_iff.1 h5 with h | h
    · exact h
    · exact absurd h (mul_pos (Phi_pos _) (Phi_pos _)).ne'
  have h7 : a - y.length * Phi (Z w) = 0 := (mul_eq_zero.1 h6).resolve_left (phi_pos _).ne'
  have h8 : Phi (Z w) = share v y := by
    rw [share, eq_div_iff hN.ne']
    linarith
  exact ⟨h8, h8 ▸ Phi_pos _, h8 ▸ Phi_lt_one _⟩

/-- The hypotheses of `C120_share`: three of four answers name the point 1. -/
example : (∀ p ∈ [(⟨1, 0, 1⟩ : IPair 3), ⟨-1, 1, 0⟩, ⟨-1, 0, 1⟩, ⟨1, 0, 1⟩], AboutPair 0 1 p) ∧
    share 1 [(⟨1, 0, 1⟩ : IPair 3), ⟨-1, 1, 0⟩, ⟨-1, 0, 1⟩, ⟨1, 0, 1⟩] = 3 / 4 := by
  refine ⟨by simp [AboutPair], ?_⟩
  norm_num [share, Favours]

/-- … and a mode in range exists. -/
example : ∃ m : Fin 2 → ℝ, IsMode 1 [(⟨1, 0, 1⟩ : IPair 2)] 1 m ∧ |(m 1 - m 0) / (Real.sqrt 2 * 1)| ≤ 30 := by
  obtain ⟨m, hm, -⟩ := C97_mode_unique 1 [(⟨1, 0, 1⟩ : IPair 2)] (K := 1) PosDef.one
  have hy : ∀ p ∈ [(⟨1, 0, 1⟩ : IPair 2)], AboutPair 0 1 p := by simp [AboutPair]
  have h := about_mode one_pos (by decide) hy (favours_counts (by decide) _ hy) PosDef.one hm
  refine ⟨m, hm, ?_⟩
  set z := (m 1 - m 0) / (Real.sqrt 2 * 1)
  have hf : Favours (1 : Fin 2) ⟨1, 0, 1⟩ := by simp [Favours]
  simp [hf] at h
  norm_num at h
  have hp := mratio_pos z
  have h1 := mratio_lt_one (z := z) (by rw [h]; exact hp.le)
  rw [abs_of_pos (by rw [h]; exact hp)]
  linarith

/-- The hypotheses of `C120_limit`: the same answer again and again. -/
example (k : Nat) : (∀ p ∈ List.replicate k (⟨1, 0, 1⟩ : IPair 2), AboutPair 0 1 p) ∧
    share 1 (List.replicate (k + 1) (⟨1, 0, 1⟩ : IPair 2)) = 1 := by
  refine ⟨fun p hp => by rw [List.eq_of_mem_replicate hp]; simp [AboutPair], ?_⟩
  have hf : Favours (1 : Fin 2) ⟨1, 0, 1⟩ := by simp [Favours]
  have : ((k : ℝ) + 1) ≠ 0 := by positivity
  simp [share, List.countP_replicate, hf, this]

/-- The hypotheses of `C120_linear`: half of the answers name each point, and the weight 0 is best. -/
example (w' : Fin 1 → ℝ) : pairLogLik 1 [(⟨1, 0, 1⟩ : IPair 2), ⟨-1, 0, 1⟩] (!![0; 1] *ᵥ w') ≤
    pairLogLik 1 [(⟨1, 0, 1⟩ : IPair 2), ⟨-1, 0, 1⟩] (!![0; 1] *ᵥ 0) := by
  have e : ∀ w : Fin 1 → ℝ, pairLogLik 1 [(⟨1, 0, 1⟩ : IPair 2), ⟨-1, 0, 1⟩] (!![0; 1] *ᵥ w) =
      Real.log (Phi (w 0 / Real.sqrt 2) * Phi (-(w 0 / Real.sqrt 2))) := by
    intro w
    rw [Real.log_mul (Phi_pos _).ne' (Phi_pos _).ne']
    simp [pairLogLik, pairZ, mulVec, dotProduct, neg_div]
  rw [e, e]
  refine Real.log_le_log (mul_pos (Phi_pos _) (Phi_pos _)) ?_
  simp only [Pi.zero_apply, zero_div, neg_zero, Phi_zero, Phi_neg]
  nlinarith [sq_nonneg (Phi (w' 0 / Real.sqrt 2) - 1 / 2)]

end Lop.Props
