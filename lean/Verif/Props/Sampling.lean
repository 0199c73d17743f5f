import Verif.Proofs.Sampling
import Verif.Spec.Sampling
import Mathlib.Analysis.SpecialFunctions.Pow.Deriv
import Mathlib.Data.Fin.VecNotation
import Mathlib.Tactic.NormNum
import Mathlib.Tactic.FinCases

/-! # C11 softmax, C14 Metropolis-Hastings, C15 gamma prior -/

namespace Lop.Props

open Lop

/-- C11: the returned vector is exactly the Boltzmann distribution. -/
theorem C11_softmax_is_boltzmann {n : Nat} (hn : 0 < n) (r : Fin n → ℝ) (p : ℝ) :
    pHumanChoice r p = .ok (Spec.boltzmann r p) := by
  unfold pHumanChoice
  have h : (Finset.univ : Finset (Fin n)).Nonempty := ⟨⟨0, hn⟩, Finset.mem_univ _⟩
  rw [dif_pos h]
  refine congrArg Except.ok ?_
  funext i
  exact softmax_shift r p _ i

/-- C11 (error branch): an empty reward vector raises. -/
theorem C11_softmax_empty (r : Fin 0 → ℝ) (p : ℝ) : pHumanChoice r p = .error .valueError := by
  unfold pHumanChoice; simp

/-- C11: positive entries summing to one. -/
theorem C11_softmax_distribution {n : Nat} (r : Fin n → ℝ) (p : ℝ) (out : Fin n → ℝ)
    (h : pHumanChoice r p = .ok out) : (∀ i, 0 < out i) ∧ ∑ i, out i = 1 := by
  rcases Nat.eq_zero_or_pos n with h0 | hn
  · subst h0; rw [C11_softmax_empty] at h; simp at h
  · rw [C11_softmax_is_boltzmann hn] at h
    cases h
    constructor
    · intro i
      exact div_pos (Real.exp_pos _) (softmax_denom_pos r p i)
    · unfold Spec.boltzmann
      rw [← Finset.sum_div, div_self (softmax_denom_pos r p ⟨0, hn⟩).ne']

/-- C11: adding a constant to all rewards changes nothing. -/
theorem C11_softmax_shift_invariant {n : Nat} (r : Fin n → ℝ) (p c : ℝ) :
    pHumanChoice (fun i => r i + c) p = pHumanChoice r p := by
  rcases Nat.eq_zero_or_pos n with h0 | hn
  · subst h0; rw [C11_softmax_empty, C11_softmax_empty]
  · rw [C11_softmax_is_boltzmann hn, C11_softmax_is_boltzmann hn]
    congr 1
    funext i
    have := softmax_shift r p (-c) i
    unfold Spec.boltzmann
    rw [← this]
    simp only [sub_neg_eq_add, mul_comm p]

/-- C11: for `p > 0` the probabilities are ordered like the rewards, for `p < 0` in reverse, and for
`p = 0` they are uniform. -/
theorem C11_softmax_order {n : Nat} (r : Fin n → ℝ) (p : ℝ) (out : Fin n → ℝ)
    (h : pHumanChoice r p = .ok out) (i j : Fin n) :
    (0 < p → (out i < out j ↔ r i < r j)) ∧ (p < 0 → (out i < out j ↔ r j < r i)) ∧
    (p = 0 → out i = 1 / n) := by
  rw [C11_softmax_is_boltzmann (Fin.pos i)] at h
  cases h
  have hd := softmax_denom_pos r p i
  unfold Spec.boltzmann
  refine ⟨fun hp => ?_, fun hp => ?_, fun hp => ?_⟩
  · rw [div_lt_div_iff_of_pos_right hd, Real.exp_lt_exp, mul_lt_mul_iff_right₀ hp]
  · rw [div_lt_div_iff_of_pos_right hd, Real.exp_lt_exp, mul_lt_mul_left_of_neg hp]
  · subst hp; simp

/-- C11: a matrix input is processed row by row, each row independently of the other rows, although a
common maximum is subtracted. -/
theorem C11_softmax_rows_independent {m n : Nat} (hm : 0 < m) (hn : 0 < n)
    (r : Fin m → Fin n → ℝ) (p : ℝ) :
    pHumanChoice2 r p = .ok fun i => Spec.boltzmann (r i) p := by
  unfold pHumanChoice2
  have h : (Finset.univ : Finset (Fin m × Fin n)).Nonempty := ⟨(⟨0, hm⟩, ⟨0, hn⟩), Finset.mem_univ _⟩
  rw [dif_pos h]
  refine congrArg Except.ok ?_
  funext i j
  exact softmax_shift (r i) p _ j

/-- C11: `sample_human_choice` returns a valid index for every uniform draw, and the set of uniform
draws that yield index `i` has Lebesgue measure equal to the Boltzmann probability of `i`. -/
theorem C11_sample_law {n : Nat} (hn : 0 < n) (r : Fin n → ℝ) (p : ℝ) :
    (∀ u : ℝ, 0 ≤ u → u < 1 → ∃ i : Fin n, sampleHumanChoice r p u = .ok i.1) ∧
    ∀ i : Fin n, MeasureTheory.volume {u : ℝ | 0 ≤ u ∧ u < 1 ∧ sampleHumanChoice r p u = .ok i.1} =
      ENNReal.ofReal (Spec.boltzmann r p i) := by
  have hd := C11_softmax_distribution r p _ (C11_softmax_is_boltzmann hn r p)
  have hnn : ∀ i, 0 ≤ Spec.boltzmann r p i := fun i => (hd.1 i).le
  have hs : ∀ u, sampleHumanChoice r p u = .ok (npChoiceIdx (Spec.boltzmann r p) u) := by
    intro u
    unfold sampleHumanChoice
    rw [C11_softmax_is_boltzmann hn]; rfl
  constructor
  · intro u _ hu1
    exact ⟨⟨_, npChoiceIdx_lt hd.2 hu1⟩, hs u⟩
  · intro i
    have hset : {u : ℝ | 0 ≤ u ∧ u < 1 ∧ sampleHumanChoice r p u = .ok i.1} =
        Set.Ico (∑ j ∈ Finset.Iio i, Spec.boltzmann r p j) (∑ j ∈ Finset.Iic i, Spec.boltzmann r p j) := by
      ext u
      simp only [Set.mem_setOf_eq, hs, Except.ok.injEq, Set.mem_Ico]
      constructor
      · rintro ⟨h0, _, h2⟩
        exact (npChoiceIdx_eq_iff hnn hd.2 h0 i).mp h2
      · rintro ⟨h1, h2⟩
        have h0 : 0 ≤ u := le_trans (Finset.sum_nonneg fun _ _ => hnn _) h1
        refine ⟨h0, lt_of_lt_of_le h2 ?_, (npChoiceIdx_eq_iff hnn hd.2 h0 i).mpr ⟨h1, h2⟩⟩
        rw [← hd.2]
        exact Finset.sum_le_sum_of_subset_of_nonneg (Finset.subset_univ _) fun _ _ _ => hnn _
    rw [hset, Real.volume_Ico, cdf_split]
    congr 1
    ring

example : (0 : ℕ) < 3 ∧ (![1, 2, 3] : Fin 3 → ℝ) 0 < (![1, 2, 3] : Fin 3 → ℝ) 2 := by
  refine ⟨by norm_num, ?_⟩
  simp [Matrix.cons_val_two, Matrix.tail_cons, Matrix.head_cons]

/-- C14: the returned list consists of the states at times `burn+1, …, burn+num_samples` of a run of
a propose/accept process from the initial point; in particular it has exactly `num_samples` entries and
the burn-in states are discarded. -/
theorem C14_mh_is_a_run {X : Type*} (ll : X → EReal) (numSamples burn : Nat) (x0 : X)
    (prop : Nat → X → X) (u : Nat → ℝ) (hu : ∀ i, 0 ≤ u i ∧ u i < 1) :
    ∃ chain : Nat → X, Spec.MetropolisRun ll prop x0 chain ∧
      metropolisHastings ll numSamples burn x0 prop u =
        (List.range' burn numSamples).map fun j => chain (j + 1) := by
  classical
  let chain : Nat → X := fun n => Nat.rec x0 (fun i x =>
    if ENNReal.ofReal (u i) < EReal.exp (ll (prop i x) - ll x) then prop i x else x) n
  have hc : ∀ i, chain (i + 1) =
      if ENNReal.ofReal (u i) < EReal.exp (ll (prop i (chain i)) - ll (chain i)) then prop i (chain i)
      else chain i := fun i => rfl
  refine ⟨chain, ⟨rfl, ?_, ?_, ?_⟩, ?_⟩
  · intro i; rw [hc i]; split
    · exact Or.inr rfl
    · exact Or.inl rfl
  · intro i a ha hle
    rw [hc i, if_pos]
    rw [ha]
    have h1 : (1 : ENNReal) ≤ EReal.exp (ll (prop i (chain i)) - (a : EReal)) := by
      rw [EReal.one_le_exp_iff]
      rw [EReal.le_sub_iff_add_le (by simp) (by simp), zero_add]
      exact hle
    refine lt_of_lt_of_le ?_ h1
    rw [← ENNReal.ofReal_one]
    exact (ENNReal.ofReal_lt_ofReal_iff one_pos).mpr (hu i).2
  · intro i hb
    rw [hc i, if_neg]
    rw [hb, sub_eq_add_neg, EReal.bot_add]
    simp
  · unfold metropolisHastings
    have := mhLoop_eq (burn := burn) chain hc (numSamples + burn) 0
    rw [range'_filter_ge] at this
    exact this

/-- C14: exactly `num_samples` states are returned. -/
theorem C14_mh_count {X : Type*} (ll : X → EReal) (numSamples burn : Nat) (x0 : X)
    (prop : Nat → X → X) (u : Nat → ℝ) (hu : ∀ i, 0 ≤ u i ∧ u i < 1) :
    (metropolisHastings ll numSamples burn x0 prop u).length = numSamples := by
  obtain ⟨c, _, h⟩ := C14_mh_is_a_run ll numSamples burn x0 prop u hu
  rw [h]; simp

/-- C14: every returned state is the initial point or one of the proposals, and if the initial point
has positive likelihood, so has every returned state. -/
theorem C14_mh_states_possible {X : Type*} (ll : X → EReal) (numSamples burn : Nat) (x0 : X)
    (prop : Nat → X → X) (u : Nat → ℝ) (hu : ∀ i, 0 ≤ u i ∧ u i < 1) (x : X)
    (hx : x ∈ metropolisHastings ll numSamples burn x0 prop u) :
    (x = x0 ∨ ∃ i y, x = prop i y) ∧ (ll x0 ≠ ⊥ → ll x ≠ ⊥) := by
  obtain ⟨c, hrun, h⟩ := C14_mh_is_a_run ll numSamples burn x0 prop u hu
  rw [h, List.mem_map] at hx
  obtain ⟨j, _, rfl⟩ := hx
  have key : ∀ k, (c k = x0 ∨ ∃ i y, c k = prop i y) ∧ (ll x0 ≠ ⊥ → ll (c k) ≠ ⊥) := by
    intro k
    induction k with
    | zero => rw [hrun.start]; exact ⟨Or.inl rfl, id⟩
    | succ k ih =>
      rcases hrun.step k with h1 | h1
      · rw [h1]; exact ih
      · refine ⟨Or.inr ⟨k, c k, h1⟩, fun h0 hb => ?_⟩
        rw [h1] at hb
        have := hrun.impossible k hb
        exact ih.2 h0 (by rw [← this, h1]; exact hb)
  exact key (j + 1)

/-- C14: the acceptance rule realises the Metropolis acceptance probability: among uniform draws in
[0,1), a proposal of log-likelihood `b` from a state of log-likelihood `a` is accepted with probability
`min(1, e^(b-a))`. -/
theorem C14_mh_acceptance_probability {X : Type*} (ll : X → EReal) (x y : X) (a b : ℝ)
    (hx : ll x = a) (hy : ll y = b) (hne : x ≠ y) :
    MeasureTheory.volume {v : ℝ | 0 ≤ v ∧ v < 1 ∧
        (mhStep ll (fun _ _ => y) (fun _ => v) 0 (x, ll x)).1 = y} =
      ENNReal.ofReal (min 1 (Real.exp (b - a))) := by
  have : {v : ℝ | 0 ≤ v ∧ v < 1 ∧ (mhStep ll (fun _ _ => y) (fun _ => v) 0 (x, ll x)).1 = y} =
      Set.Ico 0 (min 1 (Real.exp (b - a))) := by
    ext v
    simp only [Set.mem_setOf_eq, Set.mem_Ico, lt_min_iff]
    constructor
    · rintro ⟨h0, h1, h2⟩
      refine ⟨h0, h1, ?_⟩
      unfold mhStep at h2
      simp only [hx, hy, accept_iff_real h0] at h2
      by_contra hn
      rw [if_neg hn] at h2
      exact hne h2
    · rintro ⟨h0, h1, h2⟩
      refine ⟨h0, h1, ?_⟩
      unfold mhStep
      simp only [hx, hy, accept_iff_real h0, if_pos h2]
  rw [this, Real.volume_Ico, sub_zero]

/-- C14: consequently, with any symmetric proposal density, the chain is reversible with respect to the
density `e^ll` (detailed balance), so that density is the sampler's stationary target. -/
theorem C14_mh_detailed_balance {X : Type*} (ll : X → ℝ) (q : X → X → ℝ)
    (hq : ∀ x y, q x y = q y x) (x y : X) :
    Real.exp (ll x) * (q x y * min 1 (Real.exp (ll y - ll x))) =
      Real.exp (ll y) * (q y x * min 1 (Real.exp (ll x - ll y))) := by
  rw [hq y x]
  have h : ∀ a b : ℝ, Real.exp a * min 1 (Real.exp (b - a)) = min (Real.exp a) (Real.exp b) := by
    intro a b
    rw [mul_min_of_nonneg _ _ (Real.exp_pos a).le, mul_one, ← Real.exp_add]
    congr 2; ring
  calc _ = q x y * (Real.exp (ll x) * min 1 (Real.exp (ll y - ll x))) := by ring
    _ = q x y * (Real.exp (ll y) * min 1 (Real.exp (ll x - ll y))) := by rw [h, h, min_comm]
    _ = _ := by ring

example : ∃ (ll : ℝ → EReal), ll 0 = ((0 : ℝ) : EReal) ∧ ll 1 = ((-2 : ℝ) : EReal) :=
  ⟨fun x => ((-2 * x : ℝ) : EReal), by norm_num, by norm_num⟩
example : ∀ i : Nat, (0 : ℝ) ≤ (fun _ => (1 / 2 : ℝ)) i ∧ (fun _ => (1 / 2 : ℝ)) i < 1 := by
  intro i; norm_num

/-- C15: above the clipping threshold `log_pdf_gamma` is the logarithm of `pdf_gamma`. -/
theorem C15_log_pdf_is_log (x k θ : ℝ) (hx : 0.000001 ≤ x) (hk : 0 < k) (hθ : 0 < θ) :
    logPdfGamma x k θ = (Real.log (pdfGamma x k θ) : ℝ) := by
  have hx0 : 0 < x := lt_of_lt_of_le (by norm_num) hx
  unfold logPdfGamma pdfGamma
  simp only
  rw [if_neg (not_lt.mpr hx0.le), if_neg (not_lt.mpr hx)]
  have h1 : 0 < 1 / (Real.Gamma k * θ ^ k) :=
    one_div_pos.mpr (mul_pos (Real.Gamma_pos_of_pos hk) (Real.rpow_pos_of_pos hθ _))
  have h2 : 0 < x ^ (k - 1) := Real.rpow_pos_of_pos hx0 _
  rw [Real.log_mul (mul_pos h1 h2).ne' (Real.exp_pos _).ne', Real.log_mul h1.ne' h2.ne',
    Real.log_exp, Real.log_rpow hx0]
  congr 1
  ring

/-- C15: negative inputs get log-density minus infinity. -/
theorem C15_negative (x k θ : ℝ) (hx : x < 0) : logPdfGamma x k θ = ⊥ := by
  unfold logPdfGamma; simp [hx]

/-- C15: `d_log_pdf_gamma` is the derivative of `log_pdf_gamma` above the clipping threshold. -/
theorem C15_derivative (x k θ : ℝ) (hx : 0.000001 < x) (hk : 0 < k) (hθ : 0 < θ) :
    HasDerivAt (fun t => (logPdfGamma t k θ).toReal) (dLogPdfGamma x k θ) x := by
  have hx0 : 0 < x := lt_trans (by norm_num) hx
  have hf : (fun t => (logPdfGamma t k θ).toReal) =ᶠ[nhds x] fun t =>
      Real.log (1 / (Real.Gamma k * θ ^ k)) + (k - 1) * Real.log t - t / θ := by
    filter_upwards [lt_mem_nhds hx] with t ht
    have ht0 : 0 < t := lt_trans (by norm_num) ht
    unfold logPdfGamma
    simp only
    rw [if_neg (not_lt.mpr ht0.le), if_neg (not_lt.mpr ht.le), EReal.toReal_coe]
  refine HasDerivAt.congr_of_eventuallyEq ?_ hf
  have h1 := ((Real.hasDerivAt_log hx0.ne').const_mul (k - 1)).const_add
    (Real.log (1 / (Real.Gamma k * θ ^ k)))
  have h2 := h1.sub ((hasDerivAt_id x).div_const θ)
  convert! h2 using 1
  unfold dLogPdfGamma
  simp only
  rw [if_neg (not_lt.mpr hx.le)]
  ring

/-- C15: the density is non-negative on the positive axis and integrates to one. -/
theorem C15_density (k θ : ℝ) (hk : 0 < k) (hθ : 0 < θ) :
    (∀ x, 0 ≤ x → 0 ≤ pdfGamma x k θ) ∧ ∫ x in Set.Ioi 0, pdfGamma x k θ = 1 := by
  have hG := Real.Gamma_pos_of_pos hk
  have hT := Real.rpow_pos_of_pos hθ k
  constructor
  · intro x hx
    unfold pdfGamma
    have := Real.rpow_nonneg hx (k - 1)
    positivity
  · have h1 : ∀ x, pdfGamma x k θ =
        (1 / (Real.Gamma k * θ ^ k)) * (x ^ (k - 1) * Real.exp (-((1 / θ) * x))) := by
      intro x
      unfold pdfGamma
      simp only
      rw [show -x / θ = -((1 / θ) * x) by ring]
      ring
    simp only [h1]
    rw [MeasureTheory.integral_const_mul,
      Real.integral_rpow_mul_exp_neg_mul_Ioi hk (one_div_pos.mpr hθ), one_div_one_div]
    field_simp

/-- C15, remark on the clipped region: for `0 ≤ x < 1e-6` the log-density is constant in `x` while the
reported derivative is `(k-1)·10⁶ - 1/θ`, which is not its derivative unless that number is 0. -/
theorem C15_clipped_region_counterexample (x k θ : ℝ) (hx0 : 0 < x) (hx : x < 0.000001)
    (hne : (k - 1) / 0.000001 - 1 / θ ≠ 0) :
    ¬ HasDerivAt (fun t => (logPdfGamma t k θ).toReal) (dLogPdfGamma x k θ) x := by
  intro h
  have hf : (fun t => (logPdfGamma t k θ).toReal) =ᶠ[nhds x] fun _ =>
      (logPdfGamma x k θ).toReal := by
    filter_upwards [lt_mem_nhds hx0, gt_mem_nhds hx] with t ht0 ht
    unfold logPdfGamma
    simp only
    rw [if_neg (not_lt.mpr ht0.le), if_pos ht, if_neg (not_lt.mpr hx0.le), if_pos hx]
  have h2 := ((hasDerivAt_const x (logPdfGamma x k θ).toReal).congr_of_eventuallyEq hf).unique h
  apply hne
  rw [h2]
  unfold dLogPdfGamma
  simp [hx]

example : (0.000001 : ℝ) < 2 ∧ (0 : ℝ) < 3 ∧ (0 : ℝ) < 1 / 2 := by norm_num
example : (0 : ℝ) < 0.0000005 ∧ (0.0000005 : ℝ) < 0.000001 ∧
    ((2 - 1 : ℝ)) / 0.000001 - 1 / 1 ≠ 0 := by norm_num

end Lop.Props
