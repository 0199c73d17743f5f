import Verif.Spec.PrefProbit
import Verif.Proofs.PrefProbit
import Mathlib.Analysis.Convex.Deriv
import Mathlib.Analysis.Convex.Jensen
import Mathlib.LinearAlgebra.Matrix.PosDef
import Mathlib.Data.Real.StarOrdered
import Mathlib.Data.Fin.VecNotation

/-! # Properties C01 (likelihood part), C36, C37, C38 – the pairwise probit -/

namespace Lop.Props

open Lop.Spec

variable {n : Nat}

theorem zk_eq_pairZ (sigma : ℝ) (F : Fin n → ℝ) (p : IPair n) : zk sigma F p = pairZ sigma F p := by
  simp only [zk, pairZ, isqrt2sig]
  rw [mul_comm sigma]
  ring

theorem isqrt2sig_pos {sigma : ℝ} (hs : 0 < sigma) : 0 < isqrt2sig sigma := by
  unfold isqrt2sig; positivity

theorem sum_map_eq_zero {ι : Type} {l : List ι} {f : ι → ℝ} (h : ∀ x ∈ l, 0 ≤ f x)
    (h0 : (l.map f).sum = 0) : ∀ x ∈ l, f x = 0 := by
  induction l with
  | nil => simp
  | cons a l ih =>
    have h1 := h a (by simp)
    have h2 : 0 ≤ (l.map f).sum := sum_map_nonneg fun x hx => h x (by simp [hx])
    simp only [List.map_cons, List.sum_cons] at h0
    intro x hx
    rcases List.mem_cons.1 hx with rfl | hx
    · linarith
    · exact ih (fun x hx => h x (by simp [hx])) (by linarith) x hx

theorem half_le_cdf {x : ℝ} : 1 / 2 ≤ stdNormCdf x ↔ 0 ≤ x := by
  rw [stdNormCdf, ← Phi_zero, Phi_strictMono.le_iff_le]
  simp only [npClip, le_min_iff, le_max_iff]
  constructor
  · rintro ⟨h | h, -⟩
    · exact h
    · linarith
  · intro h; exact ⟨.inl h, by norm_num⟩

section C01

/-- C01, end to end: a pair recorded by `get_dk` from the true values is at least as likely as not under
the pairwise likelihood at those values, for every value vector and positive noise level. -/
theorem C01_recorded_pair_likely (sigma : ℝ) (hs : 0 < sigma) (F : Fin n → ℝ) (u v : Fin n) :
    ∃ l, prefLikelihood sigma [⟨getDkScalar (F u) (F v), u, v⟩] F = [l] ∧ 1 / 2 ≤ l ∧
      (F u ≠ F v → 1 / 2 < l) := by
  have hc := isqrt2sig_pos hs
  have key : 0 ≤ zk sigma F ⟨getDkScalar (F u) (F v), u, v⟩ ∧
      (F u ≠ F v → 0 < zk sigma F ⟨getDkScalar (F u) (F v), u, v⟩) := by
    simp only [zk, getDkScalar]
    rcases lt_trichotomy (F u) (F v) with h | h | h
    · have h' : ¬ F u > F v := not_lt.2 h.le
      simp only [if_neg h', if_pos h]
      have : 0 < isqrt2sig sigma * ((1 : Int) : ℝ) * (F v - F u) := by
        simp only [Int.cast_one, mul_one]; exact mul_pos hc (by linarith)
      exact ⟨this.le, fun _ => this⟩
    · simp [h]
    · simp only [if_pos h]
      have : 0 < isqrt2sig sigma * ((-1 : Int) : ℝ) * (F v - F u) := by
        simp only [Int.cast_neg, Int.cast_one]
        have := mul_pos hc (show 0 < F u - F v by linarith)
        linarith
      exact ⟨this.le, fun _ => this⟩
  refine ⟨_, rfl, half_le_cdf.2 key.1, fun hne => ?_⟩
  have h := key.2 hne
  show 1 / 2 < Phi (npClip _ _ _)
  rw [← Phi_zero]
  refine Phi_strictMono ?_
  simp only [npClip, lt_min_iff, lt_max_iff]
  exact ⟨.inl h, by norm_num⟩

end C01

section C36

/-- C36: each entry of the all-pairs table is a probability strictly between 0 and 1, 1/2 for equal
values, at least 1/2 exactly when the first value is at least the second; it is non-decreasing in the
value difference. No restriction to the clipping range. -/
theorem C36_probability (sigma : ℝ) (hs : 0 < sigma) (F : Fin n → ℝ) (i j : Fin n) :
    0 < prefAllPairs sigma F i j ∧ prefAllPairs sigma F i j < 1 ∧
      (F i = F j → prefAllPairs sigma F i j = 1 / 2) ∧
      (1 / 2 ≤ prefAllPairs sigma F i j ↔ F j ≤ F i) ∧
      (∀ (F' : Fin n → ℝ) (k l : Fin n), F i - F j ≤ F' k - F' l →
        prefAllPairs sigma F i j ≤ prefAllPairs sigma F' k l) := by
  have hc := isqrt2sig_pos hs
  refine ⟨Phi_pos _, Phi_lt_one _, ?_, ?_, ?_⟩
  · intro h
    simp only [prefAllPairs, h, sub_self, zero_mul]
    rw [stdNormCdf_of_mem (by norm_num) (by norm_num), Phi_zero]
  · rw [prefAllPairs, half_le_cdf]
    constructor
    · intro h
      by_contra hlt
      have := mul_neg_of_neg_of_pos (show F i - F j < 0 by linarith) hc
      linarith
    · intro h
      exact mul_nonneg (by linarith) hc.le
  · intro F' k l h
    exact Phi_strictMono.monotone (npClip_mono (mul_le_mul_of_nonneg_right h hc.le))

/-- C36: strictly increasing in the value difference inside the clipping range. -/
theorem C36_strict (sigma : ℝ) (hs : 0 < sigma) (F F' : Fin n → ℝ) (i j k l : Fin n)
    (hlo : -30 ≤ (F i - F j) / (Real.sqrt 2 * sigma)) (hhi : (F' k - F' l) / (Real.sqrt 2 * sigma) ≤ 100)
    (h : F i - F j < F' k - F' l) : prefAllPairs sigma F i j < prefAllPairs sigma F' k l := by
  have hc := isqrt2sig_pos hs
  have e : ∀ x : ℝ, x * isqrt2sig sigma = x / (Real.sqrt 2 * sigma) := by
    intro x; simp only [isqrt2sig]; rw [mul_comm sigma]; ring
  have hlt := mul_lt_mul_of_pos_right h hc
  rw [e, e] at hlt
  simp only [prefAllPairs, e]
  rw [stdNormCdf_of_mem hlo (by linarith), stdNormCdf_of_mem (by linarith) hhi]
  exact Phi_strictMono hlt

/-- C36: inside the range the two directions of a comparison have probabilities summing to 1. -/
theorem C36_complement_partial (sigma : ℝ) (F : Fin n → ℝ) (i j : Fin n)
    (h : |(F i - F j) / (Real.sqrt 2 * sigma)| ≤ 30) :
    prefAllPairs sigma F i j + prefAllPairs sigma F j i = 1 := by
  have e : ∀ x : ℝ, x * isqrt2sig sigma = x / (Real.sqrt 2 * sigma) := by
    intro x; simp only [isqrt2sig]; rw [mul_comm sigma]; ring
  obtain ⟨h1, h2⟩ := abs_le.1 h
  have hneg : (F j - F i) / (Real.sqrt 2 * sigma) = -((F i - F j) / (Real.sqrt 2 * sigma)) := by ring
  simp only [prefAllPairs, e]
  rw [hneg, stdNormCdf_of_mem h1 (by linarith), stdNormCdf_of_mem (by linarith) (by linarith), Phi_neg]
  ring

/-- C36 as stated is false beyond the clipping limit: there the two probabilities sum to more than 1. -/
theorem C36_complement_counterexample (sigma : ℝ) (F : Fin n → ℝ) (i j : Fin n)
    (h : 30 < (F i - F j) / (Real.sqrt 2 * sigma)) :
    1 < prefAllPairs sigma F i j + prefAllPairs sigma F j i := by
  have e : ∀ x : ℝ, x * isqrt2sig sigma = x / (Real.sqrt 2 * sigma) := by
    intro x; simp only [isqrt2sig]; rw [mul_comm sigma]; ring
  have hneg : (F j - F i) / (Real.sqrt 2 * sigma) = -((F i - F j) / (Real.sqrt 2 * sigma)) := by ring
  simp only [prefAllPairs, e]
  rw [hneg]
  generalize (F i - F j) / (Real.sqrt 2 * sigma) = x at h
  have h2 : stdNormCdf (-x) = 1 - Phi 30 := by
    rw [stdNormCdf, ← Phi_neg]
    congr 1
    simp only [npClip]
    rw [max_eq_right (by linarith), min_eq_left (by norm_num)]
  have h1 : Phi 30 < stdNormCdf x := by
    rw [stdNormCdf]
    refine Phi_strictMono ?_
    simp only [npClip, lt_min_iff, lt_max_iff]
    exact ⟨.inl h, by norm_num⟩
  linarith

/-- Instances of the hypotheses of C36. -/
example : |((![1, 3] : Fin 2 → ℝ) 0 - (![1, 3] : Fin 2 → ℝ) 1) / (Real.sqrt 2 * 1)| ≤ 30 := by
  have h : (1 : ℝ) < Real.sqrt 2 := Real.lt_sqrt_of_sq_lt (by norm_num)
  simp only [Matrix.cons_val_zero, Matrix.cons_val_one]
  rw [abs_div, div_le_iff₀ (by positivity), abs_of_pos (by positivity : (0 : ℝ) < Real.sqrt 2 * 1)]
  norm_num
  linarith

/-- C36: the all-pairs table agrees with the per-pair likelihood of the recorded preference "i over j",
in both encodings (`d = -1` with `u = i`, `d = 1` with `v = i`). -/
theorem C36_table_agrees (sigma : ℝ) (F : Fin n → ℝ) (i j : Fin n) :
    prefLikelihood sigma [⟨getDkScalar (1 : Int) 0, i, j⟩] F = [prefAllPairs sigma F i j] ∧
      prefLikelihood sigma [⟨1, j, i⟩] F = [prefAllPairs sigma F i j] := by
  constructor
  · simp only [prefLikelihood, prefAllPairs, zk, List.map_cons, List.map_nil]
    have : getDkScalar (1 : Int) 0 = -1 := by decide
    rw [this]
    congr 2
    push_cast
    ring
  · simp only [prefLikelihood, prefAllPairs, zk, List.map_cons, List.map_nil]
    congr 2
    push_cast
    ring

end C36

section C37

theorem inRange_zk {sigma : ℝ} {y : List (IPair n)} {F : Fin n → ℝ} (h : PairsInRange sigma y F) :
    ∀ p ∈ y, -30 < zk sigma F p ∧ zk sigma F p < 100 := by
  intro p hp; rw [zk_eq_pairZ]; exact h p hp

theorem logLik_eventually {sigma : ℝ} {y : List (IPair n)} {F : Fin n → ℝ} (h : PairsInRange sigma y F) :
    pairLogLik sigma y =ᶠ[nhds F] prefLogLik sigma y := by
  filter_upwards [eventually_in_range sigma y F (inRange_zk h)] with G hG
  simp only [prefLogLik, pairLogLik]
  exact sum_map_congr fun p hp => by rw [npClip_of_mem (hG p hp).1.le (hG p hp).2.le, zk_eq_pairZ]

/-- C37: `derivatives(y, F)` returns the log-likelihood of the pairs, its gradient and minus its
Hessian, for every pair list (repeats, several labels per point, any labels `d`) and every value vector
strictly inside the clipping range. -/
theorem C37_derivatives (sigma : ℝ) (y : List (IPair n)) (F : Fin n → ℝ) (h : PairsInRange sigma y F) :
    (prefDerivatives sigma y F).2.2 = pairLogLik sigma y F ∧
      IsGradientAt (pairLogLik sigma y) (prefDerivatives sigma y F).2.1 F ∧
      IsHessianAt (pairLogLik sigma y) (fun i j => -(prefDerivatives sigma y F).1 i j) F := by
  refine ⟨(logLik_eventually h).eq_of_nhds.symm, ?_, prefDerv sigma y, ?_, ?_⟩
  · exact (grad_logLik sigma y F (inRange_zk h)).congr (logLik_eventually h) rfl
  · filter_upwards [eventually_in_range sigma y F (inRange_zk h)] with G hG
    have hG' : PairsInRange sigma y G := by
      intro p hp; rw [← zk_eq_pairZ]; exact hG p hp
    exact (grad_logLik sigma y G hG).congr (logLik_eventually hG') rfl
  · exact grad_derv sigma y F (inRange_zk h)

/-- Instance of the hypothesis of C37: two pairs about three points, one of them repeated. -/
example : PairsInRange 1 [⟨-1, 0, 1⟩, ⟨1, 2, 1⟩, ⟨-1, 0, 1⟩] (![1, 3, 2] : Fin 3 → ℝ) := by
  have h : (1 : ℝ) < Real.sqrt 2 := Real.lt_sqrt_of_sq_lt (by norm_num)
  have hp : (0 : ℝ) < Real.sqrt 2 * 1 := by positivity
  intro p hp'
  simp only [List.mem_cons, List.not_mem_nil, or_false] at hp'
  rcases hp' with rfl | rfl | rfl <;>
    simp [pairZ, lt_div_iff₀, div_lt_iff₀] <;> constructor <;> norm_num <;> linarith

/-- C37: `W` is symmetric with zero row sums and positive semi-definite; its quadratic form vanishes
exactly on the vectors that do not distinguish any compared pair. -/
theorem C37_W_psd (sigma : ℝ) (hs : sigma ≠ 0) (y : List (IPair n)) (F : Fin n → ℝ) (h : PairsInRange sigma y F) :
    (prefW sigma y F).PosSemidef ∧ (∀ i, ∑ j, prefW sigma y F i j = 0) ∧
      ∀ x : Fin n → ℝ, ∑ i, x i * ∑ j, prefW sigma y F i j * x j = 0 ↔
        ∀ p ∈ y, p.dk ≠ 0 → x p.u = x p.v := by
  set w : IPair n → ℝ := fun p => (p.dk : ℝ) ^ 2 * isqrt2sig sigma ^ 2 * mcurv (zk sigma F p) with hw
  have hc0 : isqrt2sig sigma ≠ 0 := by
    unfold isqrt2sig
    have : Real.sqrt 2 ≠ 0 := by positivity
    simp [hs]
  have hM : ∀ i j, prefW sigma y F i j = (y.map fun p => w p * (inc p i * inc p j)).sum := by
    intro i j
    rw [prefW_apply]
    refine sum_map_congr fun p hp => ?_
    rw [pdfCdfRatio_of_mem (inRange_zk h p hp).1.le (inRange_zk h p hp).2.le,
      pdfCdfRatio2_of_mem (inRange_zk h p hp).1.le (inRange_zk h p hp).2.le]
    rfl
  have hw0 : ∀ p, 0 ≤ w p := fun p => by
    have := (mcurv_pos (zk sigma F p)).le
    simp only [hw]; positivity
  have hq := pairs_quadratic y w _ hM
  refine ⟨Matrix.PosSemidef.of_dotProduct_mulVec_nonneg ?_ ?_, ?_, ?_⟩
  · ext i j
    simp only [Matrix.conjTranspose_apply, star_trivial]
    rw [hM, hM]
    exact sum_map_congr fun p _ => by ring
  · intro x
    have : star x ⬝ᵥ (prefW sigma y F).mulVec x = ∑ i, x i * ∑ j, prefW sigma y F i j * x j := by
      simp [dotProduct, Matrix.mulVec]
    rw [this, hq]
    exact sum_map_nonneg fun p _ => mul_nonneg (hw0 p) (sq_nonneg _)
  · intro i
    simp only [hM]
    rw [sum_finset_list]
    refine List.sum_eq_zero fun a ha => ?_
    obtain ⟨p, -, rfl⟩ := List.mem_map.1 ha
    have : ∑ k, w p * (inc p i * inc p k) = w p * inc p i * ∑ k, inc p k := by
      rw [Finset.mul_sum]; exact Finset.sum_congr rfl fun k _ => by ring
    rw [this, sum_inc, mul_zero]
  · intro x
    rw [hq]
    have hnn : ∀ p ∈ y, 0 ≤ w p * (x p.v - x p.u) ^ 2 := fun p _ => mul_nonneg (hw0 p) (sq_nonneg _)
    constructor
    · intro h0 p hp hd
      have := sum_map_eq_zero hnn h0 p hp
      have hwp : 0 < w p := by
        have h1 := mcurv_pos (zk sigma F p)
        have h2 : (p.dk : ℝ) ≠ 0 := by exact_mod_cast hd
        simp only [hw]; positivity
      have h3 : (x p.v - x p.u) ^ 2 = 0 := by
        rcases mul_eq_zero.1 this with h | h
        · exact absurd h hwp.ne'
        · exact h
      have := pow_eq_zero_iff (two_ne_zero) |>.1 h3
      linarith
    · intro h0
      refine List.sum_eq_zero fun a ha => ?_
      obtain ⟨p, hp, rfl⟩ := List.mem_map.1 ha
      by_cases hd : p.dk = 0
      · simp [hw, hd]
      · rw [h0 p hp hd]; simp

/-- C37: the log-likelihood is a concave function of the values. -/
theorem C37_concave (sigma : ℝ) (y : List (IPair n)) : ConcaveOn ℝ Set.univ (pairLogLik sigma y) := by
  have hlog : ConcaveOn ℝ Set.univ (fun x => Real.log (Phi x)) := by
    have hd : deriv (fun x => Real.log (Phi x)) = mratio := funext fun x => (hasDerivAt_logPhi x).deriv
    refine Antitone.concaveOn_univ_of_deriv (fun x => (hasDerivAt_logPhi x).differentiableAt) ?_
    rw [hd]
    refine antitone_of_deriv_nonpos (fun x => (hasDerivAt_mratio x).differentiableAt) fun x => ?_
    rw [(hasDerivAt_mratio x).deriv]
    linarith [mcurv_pos x]
  refine ⟨convex_univ, fun F _ G _ a b ha hb hab => ?_⟩
  simp only [pairLogLik, smul_eq_mul]
  have : a * (y.map fun p => Real.log (Phi (pairZ sigma F p))).sum +
      b * (y.map fun p => Real.log (Phi (pairZ sigma G p))).sum =
      (y.map fun p => a * Real.log (Phi (pairZ sigma F p)) + b * Real.log (Phi (pairZ sigma G p))).sum := by
    rw [← sum_map_add]
    congr 1 <;> rw [mul_comm, sum_map_mul] <;> exact sum_map_congr fun p _ => mul_comm _ _
  rw [this]
  refine List.sum_le_sum fun p _ => ?_
  have hz : pairZ sigma (a • F + b • G) p = a * pairZ sigma F p + b * pairZ sigma G p := by
    simp only [pairZ, Pi.add_apply, Pi.smul_apply, smul_eq_mul]
    ring
  rw [hz]
  exact hlog.2 (Set.mem_univ _) (Set.mem_univ _) ha hb hab

/-- C37: observations accumulate: the derivatives for two lists of pairs are the sums of the derivatives
for each list, whether or not pairs are repeated. -/
theorem C37_accumulates (sigma : ℝ) (y1 y2 : List (IPair n)) (F : Fin n → ℝ) :
    prefLogLik sigma (y1 ++ y2) F = prefLogLik sigma y1 F + prefLogLik sigma y2 F ∧
      (∀ i, prefDerv sigma (y1 ++ y2) F i = prefDerv sigma y1 F i + prefDerv sigma y2 F i) ∧
      ∀ i j, prefW sigma (y1 ++ y2) F i j = prefW sigma y1 F i j + prefW sigma y2 F i j := by
  refine ⟨by simp [prefLogLik], fun i => ?_, fun i j => ?_⟩
  · simp [prefDerv_apply]
  · simp [prefW_apply]

/-- Outside the clipping range the claim fails: for a pair whose winner is rated far too low, the
log-likelihood is locally constant but the returned gradient is not zero, and `W` is not positive
semi-definite. -/
theorem C37_clipped_counterexample :
    ∃ F : Fin 2 → ℝ, IsGradientAt (prefLogLik 1 [⟨-1, 0, 1⟩]) 0 F ∧ prefDerv 1 [⟨-1, 0, 1⟩] F ≠ 0 ∧
      prefW 1 [⟨-1, 0, 1⟩] F 0 0 < 0 := by
  have h2 : (0 : ℝ) < Real.sqrt 2 := by positivity
  set t : ℝ := 31 + 1 / Phi (-30) with ht
  have hP := Phi_pos (-30)
  have ht31 : 31 < t := by rw [ht]; have : 0 < 1 / Phi (-30) := by positivity
                           linarith
  set F : Fin 2 → ℝ := ![0, t * Real.sqrt 2] with hF
  have hz : zk 1 F ⟨-1, 0, 1⟩ = -t := by
    simp only [zk, isqrt2sig, hF, Matrix.cons_val_zero, Matrix.cons_val_one]
    push_cast
    field_simp
    ring
  have hcdf : stdNormCdf (-t) = Phi (-30) := by
    rw [stdNormCdf]; congr 1
    simp only [npClip]
    rw [max_eq_right (by linarith), min_eq_left (by norm_num)]
  have hr : 0 < pdfCdfRatio (-t) := div_pos (phi_pos _) (stdNormCdf_pos _)
  have hi : 0 < isqrt2sig 1 := isqrt2sig_pos one_pos
  refine ⟨F, ?_, ?_, ?_⟩
  · have he : prefLogLik 1 [⟨-1, 0, 1⟩] =ᶠ[nhds F] fun _ => Real.log (Phi (-30)) := by
      have e1 : ∀ᶠ G in nhds F, zk 1 G ⟨-1, 0, 1⟩ < -30 :=
        (continuous_zk 1 _).continuousAt.eventually (gt_mem_nhds (by show zk 1 F _ < _; rw [hz]; linarith))
      filter_upwards [e1] with G hG
      simp only [prefLogLik, List.map_cons, List.map_nil, List.sum_cons, List.sum_nil, add_zero, npClip]
      rw [max_eq_right hG.le, min_eq_left (by norm_num)]
    unfold IsGradientAt
    refine HasFDerivAt.congr_fderiv ((hasFDerivAt_const _ F).congr_of_eventuallyEq he) ?_
    ext v; simp
  · intro h0
    have := congrFun h0 0
    rw [prefDerv_apply] at this
    simp only [List.map_cons, List.map_nil, List.sum_cons, List.sum_nil, hz, inc, Pi.zero_apply] at this
    norm_num at this
    rcases this with h | h
    · exact hr.ne' h
    · exact hi.ne' h
  · rw [prefW_apply]
    simp only [List.map_cons, List.map_nil, List.sum_cons, List.sum_nil, hz, inc, pdfCdfRatio2]
    norm_num
    have hlt : pdfCdfRatio (-t) < t := by
      rw [pdfCdfRatio, hcdf, div_lt_iff₀ hP, stdNormPdf_eq]
      have h1 := phi_lt_one (-t)
      have h3 : t * Phi (-30) = 31 * Phi (-30) + 1 := by rw [ht]; field_simp
      rw [h3]; linarith [mul_pos (show (0:ℝ) < 31 by norm_num) hP]
    have : -(t * pdfCdfRatio (-t)) + pdfCdfRatio (-t) * pdfCdfRatio (-t) < 0 := by
      nlinarith
    exact mul_neg_of_pos_of_neg (by positivity) this

end C37

section C38

/-- C38: `grad_hyper` is the derivative of the log-likelihood with respect to the noise level and
`calc_W_dHyper` the derivative of `W`. -/
theorem C38_noise_level (sigma : ℝ) (hs : 0 < sigma) (y : List (IPair n)) (F : Fin n → ℝ)
    (h : PairsInRange sigma y F) :
    HasDerivAt (fun s => pairLogLik s y F) (prefGradHyper sigma y F) sigma ∧
      ∀ i j, HasDerivAt (fun s => prefW s y F i j) (prefWdHyper sigma y F i j) sigma := by
  refine ⟨?_, deriv_W_sigma hs.ne' y F (inRange_zk h)⟩
  refine (deriv_logLik_sigma hs.ne' y F (inRange_zk h)).congr_of_eventuallyEq ?_
  filter_upwards [eventually_in_range_sigma hs.ne' y F (inRange_zk h)] with s hG
  simp only [prefLogLik, pairLogLik]
  exact sum_map_congr fun p hp => by rw [npClip_of_mem (hG p hp).1.le (hG p hp).2.le, zk_eq_pairZ]

theorem cube_isqrt {sigma : ℝ} (hs : sigma ≠ 0) :
    isqrt2sig sigma ^ 3 = 1 / (2 * Real.sqrt 2 * sigma * sigma * sigma) := by
  have h2 : Real.sqrt 2 ≠ 0 := by positivity
  have h22 : Real.sqrt 2 ^ 2 = 2 := Real.sq_sqrt (by norm_num)
  simp only [isqrt2sig]
  rw [div_pow, mul_pow, show Real.sqrt 2 ^ 3 = 2 * Real.sqrt 2 by rw [pow_succ, h22]]
  field_simp

/-- The error of one pair's contribution in `calc_W_dF`: a factor `φ` where `φ/Φ` belongs. -/
noncomputable def dFError (sigma : ℝ) (F : Fin n → ℝ) (p : IPair n) : ℝ :=
  (p.dk : ℝ) ^ 3 / (2 * Real.sqrt 2 * sigma ^ 3) *
    (2 * (phi (pairZ sigma F p) / Phi (pairZ sigma F p)) ^ 2 *
      (phi (pairZ sigma F p) / Phi (pairZ sigma F p) - phi (pairZ sigma F p)))

/-- C38, what holds of `calc_W_dF`: it is the derivative of `W` up to the error term `dFError`, so the
index pattern, the signs and all other terms are right. Missing: equality, refuted below. -/
theorem C38_W_dF_partial (sigma : ℝ) (hs : 0 < sigma) (y : List (IPair n)) (F : Fin n → ℝ)
    (h : PairsInRange sigma y F) (i j : Fin n) :
    IsGradientAt (fun F => prefW sigma y F i j)
      (fun a => prefWdF sigma y F a i j -
        (y.map fun p => dFError sigma F p * (inc p a * inc p i * inc p j)).sum) F := by
  refine (grad_W sigma y F (inRange_zk h) i j).congr (Filter.Eventually.of_forall fun _ => rfl) ?_
  funext a
  simp only [prefWdF, addUpWPartial_apply, List.map_map, Function.comp_def]
  rw [sub_eq_add_neg, sum_map_neg, sum_map_add]
  refine sum_map_congr fun p hp => ?_
  rw [cube_isqrt hs.ne', pdfCdfRatio_of_mem (inRange_zk h p hp).1.le (inRange_zk h p hp).2.le,
      pdfCdfRatio2_of_mem (inRange_zk h p hp).1.le (inRange_zk h p hp).2.le, stdNormPdf_eq]
  simp only [mthird, mratio, dFError, ← zk_eq_pairZ]
  ring

/-- C38 as stated is false for `calc_W_dF`: for a single pair of different points it is never the
derivative of `W`, whatever the values (inside the clipping range). -/
theorem C38_W_dF_false (sigma : ℝ) (hs : 0 < sigma) (p : IPair n) (hd : p.dk ≠ 0) (huv : p.u ≠ p.v)
    (F : Fin n → ℝ) (h : PairsInRange sigma [p] F) :
    ¬ IsGradientAt (fun F => prefW sigma [p] F p.u p.u) (fun a => prefWdF sigma [p] F a p.u p.u) F := by
  intro hg
  have hg' := C38_W_dF_partial sigma hs [p] F h p.u p.u
  have he := hg.unique hg'
  have := congrArg (fun L : (Fin n → ℝ) →L[ℝ] ℝ => L (Pi.single p.u 1)) he
  simp only [ContinuousLinearMap.sum_apply, ContinuousLinearMap.smul_apply,
    ContinuousLinearMap.proj_apply, smul_eq_mul, Pi.single_apply, mul_ite, mul_one, mul_zero,
    Finset.sum_ite_eq', Finset.mem_univ, if_true, List.map_cons, List.map_nil, List.sum_cons,
    List.sum_nil, add_zero] at this
  have hinc : inc p p.u = -1 := by simp [inc, Ne.symm huv]
  rw [hinc] at this
  have h0 : dFError sigma F p = 0 := by linarith
  simp only [dFError] at h0
  have hp1 := phi_pos (pairZ sigma F p)
  have hP := Phi_pos (pairZ sigma F p)
  have hP1 := Phi_lt_one (pairZ sigma F p)
  have hdk : (p.dk : ℝ) ≠ 0 := by exact_mod_cast hd
  have hlt : phi (pairZ sigma F p) < phi (pairZ sigma F p) / Phi (pairZ sigma F p) := by
    rw [lt_div_iff₀ hP]; nlinarith
  have h2 : Real.sqrt 2 ≠ 0 := by positivity
  have : (p.dk : ℝ) ^ 3 / (2 * Real.sqrt 2 * sigma ^ 3) ≠ 0 := by positivity
  rcases mul_eq_zero.1 h0 with h | h
  · exact this h
  · have : 0 < 2 * (phi (pairZ sigma F p) / Phi (pairZ sigma F p)) ^ 2 *
      (phi (pairZ sigma F p) / Phi (pairZ sigma F p) - phi (pairZ sigma F p)) := by
      refine mul_pos (by positivity) (by linarith)
    exact this.ne' h

end C38

end Lop.Props
