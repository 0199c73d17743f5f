import Verif.Proofs.Rounded
import Verif.Proofs.Normal
import Mathlib.Analysis.Complex.ExponentialBounds

/-! # C101: probits with rounding -/

namespace Lop.Props

open Lop Lop.Spec

private lemma clip_mono (lo hi : ℝ) : Monotone (npClip lo hi) := by
  intro x y h
  exact min_le_min_right _ (max_le_max_right _ h)

private lemma cdf_mono (N : NpNdtr) : Monotone (stdNormCdfF N) := fun _ _ h => N.mono (clip_mono _ _ h)

/-- With rounding the likelihood of a pair lies between 0 and 1; it is never below the value of `ndtr` at -30, so its
logarithm is finite if that is positive. -/
theorem C101_pair_range (A : FloatArith) (N : NpNdtr) {n : Nat} (c : ℝ) (F : Fin n → ℝ) (p : IPair n) :
    N.ndtr (-30) ≤ pairLikF A N c F p ∧ 0 ≤ pairLikF A N c F p ∧ pairLikF A N c F p ≤ 1 := by
  unfold pairLikF stdNormCdfF
  refine ⟨N.mono ?_, N.nonneg _, N.le_one _⟩
  exact le_min (le_max_right _ _) (by norm_num)

/-- With rounding the likelihood that `v` is preferred does not decrease with the difference of the values. -/
theorem C101_pair_order (A : FloatArith) (N : NpNdtr) {n : Nat} (c : ℝ) (hc : 0 ≤ c) (F F' : Fin n → ℝ) (u v : Fin n)
    (h : F v - F u ≤ F' v - F' u) : pairLikF A N c F ⟨1, u, v⟩ ≤ pairLikF A N c F' ⟨1, u, v⟩ := by
  unfold pairLikF
  simp only [Int.cast_one, mul_one]
  exact cdf_mono N (A.mono (mul_le_mul_of_nonneg_left (A.mono h) (A.nonneg hc)))

/-- With rounding reversing the label gives exactly the likelihood of the exchanged points, and equal values give `ndtr` of
0 whatever the label. -/
theorem C101_pair_swap (A : FloatArith) (N : NpNdtr) {n : Nat} (c : ℝ) (F : Fin n → ℝ) (d : Int) (u v : Fin n) :
    pairLikF A N c F ⟨-d, u, v⟩ = pairLikF A N c F ⟨d, v, u⟩ ∧
    (F u = F v → pairLikF A N c F ⟨d, u, v⟩ = N.ndtr 0) := by
  constructor
  · unfold pairLikF
    simp only [Int.cast_neg]
    rw [mul_neg, A.neg, ← neg_sub (F u) (F v), A.neg, neg_mul_neg]
  · intro h
    unfold pairLikF stdNormCdfF
    simp only
    rw [h, sub_self, A.zero, mul_zero, A.zero]
    norm_num [npClip]

private lemma ord_cdf_range (A : FloatArith) (N : NpNdtr) (n : Nat) (c : ℝ) (b : Nat → ℝ) (y : Nat) (f : ℝ) :
    0 ≤ ordCdfF A N n c b y f ∧ ordCdfF A N n c b y f ≤ 1 := by
  unfold ordCdfF
  split_ifs
  · exact ⟨zero_le_one, le_rfl⟩
  · exact ⟨le_rfl, zero_le_one⟩
  · exact ⟨N.nonneg _, N.le_one _⟩

/-- With rounding the likelihood of every rating lies between 0 and 1 if the boundaries are in order. -/
theorem C101_ordinal_range (A : FloatArith) (N : NpNdtr) (n : Nat) (c : ℝ) (hc : 0 ≤ c) (b : Nat → ℝ)
    (hb : ∀ y, 0 < y → y + 1 < n → b y ≤ b (y + 1)) (y : Nat) (hy : y < n) (f : ℝ) :
    0 ≤ ordLikF A N n c b y f ∧ ordLikF A N n c b y f ≤ 1 := by
  unfold ordLikF
  have h1 := ord_cdf_range A N n c b (y + 1) f
  have h0 := ord_cdf_range A N n c b y f
  refine ⟨A.nonneg ?_, A.le_one (by linarith)⟩
  rw [sub_nonneg]
  by_cases hn : y + 1 = n
  · have : ordCdfF A N n c b (y + 1) f = 1 := by simp [ordCdfF, hn]
    rw [this]
    exact h0.2
  by_cases hz : y = 0
  · have : ordCdfF A N n c b y f = 0 := by
      unfold ordCdfF
      rw [if_neg (by omega), if_pos hz]
    rw [this]
    exact h1.1
  · unfold ordCdfF
    rw [if_neg (by omega), if_neg hz, if_neg hn, if_neg (by omega)]
    refine cdf_mono N (A.mono (mul_le_mul_of_nonneg_left (A.mono ?_) (A.nonneg (by linarith))))
    linarith [hb y (by omega) (by omega)]

/-- With rounding the likelihood of a middle rating is exactly 0 as soon as `ndtr` has reached 1 at its lower boundary, so
that the logarithm in `derivatives` is `-inf`; without rounding it is positive. -/
theorem C101_ordinal_positive_false (A : FloatArith) (N : NpNdtr) (hN : N.ndtr 9 = 1) (n : Nat) (c : ℝ) (hc : 0 ≤ c)
    (b : Nat → ℝ) (y : Nat) (h0 : 0 < y) (hy : y + 1 < n) (hb : b y ≤ b (y + 1)) (f : ℝ)
    (hf : 9 ≤ A.rnd (A.rnd (c + 0) * A.rnd (b y - f))) : ordLikF A N n c b y f = 0 := by
  have key : ∀ z, 9 ≤ z → stdNormCdfF N z = 1 := by
    intro z hz
    refine le_antisymm (N.le_one _) ?_
    rw [← hN]
    refine N.mono (le_min (le_max_of_le_left hz) (by norm_num))
  have h2 : 9 ≤ A.rnd (A.rnd (c + 0) * A.rnd (b (y + 1) - f)) :=
    hf.trans (A.mono (mul_le_mul_of_nonneg_left (A.mono (by linarith)) (A.nonneg (by linarith))))
  unfold ordLikF ordCdfF
  rw [if_neg (by omega), if_neg (by omega), if_neg (by omega), if_neg (by omega), key _ hf, key _ h2, sub_self, A.zero]

/-- The correctly rounded normal distribution function. -/
noncomputable def roundedPhi (A : FloatArith) : NpNdtr where
  ndtr x := A.rnd (Phi x)
  mono _ _ h := A.mono (Phi_strictMono.monotone h)
  nonneg x := A.nonneg (Phi_pos x).le
  le_one x := A.le_one (Phi_lt_one x).le

/-- In binary64 the correctly rounded distribution function is 1 at 9, as assumed in `C101_ordinal_positive_false`. -/
example : (roundedPhi binary64).ndtr 9 = 1 := by
  have h1 : Phi (-9) ≤ 2 ^ (-55 : ℤ) := by
    have hm := mills (-9)
    have hphi : phi (-9) ≤ Real.exp (-40) := by
      unfold phi
      have hs : 1 ≤ Real.sqrt (2 * Real.pi) := by
        rw [Real.one_le_sqrt]
        linarith [Real.pi_gt_three]
      have he : Real.exp (-((-9 : ℝ) ^ 2) / 2) ≤ Real.exp (-40) := Real.exp_le_exp.2 (by norm_num)
      exact (div_le_self (Real.exp_pos _).le hs).trans he
    have h4 : Real.exp (-40) ≤ 2 ^ (-53 : ℤ) := by
      rw [Real.exp_neg, zpow_neg]
      refine inv_anti₀ (by positivity) ?_
      have h2 : (2.7 : ℝ) ≤ Real.exp 1 := by linarith [Real.exp_one_gt_d9]
      have h3 : Real.exp 40 = Real.exp 1 ^ 40 := by
        rw [← Real.exp_nat_mul]
        norm_num
      rw [h3]
      calc (2 : ℝ) ^ (53 : ℤ) ≤ (2.7 : ℝ) ^ 40 := by norm_num
        _ ≤ _ := pow_le_pow_left₀ (by norm_num) h2 _
    norm_num at h4 ⊢
    linarith
  have h2 := round64_below_one (Phi_pos (-9)).le h1
  rw [Phi_neg, sub_sub_cancel] at h2
  exact h2

/-- A rating of 3 of 5 with boundaries 1, 2, 3, 4 and a value of -20 meets the hypotheses. -/
example : (9 : ℝ) ≤ binary64.rnd (binary64.rnd (1 + 0) * binary64.rnd (((2 : Nat) : ℝ) - -20)) := by
  have h22 : binary64.rnd 22 = 22 := by
    have := binary64.nat 22 (by norm_num)
    push_cast at this
    exact this
  rw [add_zero, binary64.one, one_mul]
  norm_num [h22]

/-! ## Absolute ratings -/

/-- With rounding the mean of the beta distribution lies between `eps` and the rounded `1 - eps`, and it does not decrease
with the value. -/
theorem C101_abs_mean (A : FloatArith) (N : NpNdtr) (c eps : ℝ) (hc : 0 ≤ c) (he : eps ≤ 1 / 4) :
    (∀ f, eps ≤ meanLinkF A N c eps f ∧ meanLinkF A N c eps f ≤ A.rnd (1 - eps)) ∧
    ∀ f g, f ≤ g → meanLinkF A N c eps f ≤ meanLinkF A N c eps g := by
  refine ⟨fun f => ⟨le_min (le_max_right _ _) ?_, min_le_right _ _⟩, fun f g h => ?_⟩
  · have h1 : (1 : ℝ) / 2 ≤ 1 - eps := by linarith
    have h2 := (A.rel (x := 1 / 2) (by
      have := one_div_le_one_div_of_le (by norm_num : (0 : ℝ) < 2) (show (2 : ℝ) ≤ 2 ^ 1022 by
        calc (2 : ℝ) = 2 ^ 1 := by norm_num
          _ ≤ _ := pow_le_pow_right₀ (by norm_num) (by norm_num))
      exact this) ((by norm_num : (1 : ℝ) / 2 ≤ 1).trans (one_le_pow₀ (by norm_num)))).1
    have h3 := A.mono h1
    norm_num at h2
    linarith
  · exact clip_mono _ _ (cdf_mono N (A.mono (mul_le_mul_of_nonneg_right h hc)))

/-- With rounding both parameters of the beta distribution are positive, alpha is at most `v`, and they add up to `v` up
to a relative error of `2^-52`. -/
theorem C101_abs_positive (A : FloatArith) (N : NpNdtr) (c v eps f : ℝ) (hc : 0 ≤ c) (hv : 1 / 2 ^ 500 ≤ v)
    (hv' : v ≤ 2 ^ 500) (he : 1 / 2 ^ 50 ≤ eps) (he' : eps ≤ 1 / 4) :
    0 < (alphaBetaF A N c v eps f).1 ∧ 0 < (alphaBetaF A N c v eps f).2 ∧ (alphaBetaF A N c v eps f).1 < v ∧
      |(alphaBetaF A N c v eps f).1 + (alphaBetaF A N c v eps f).2 - v| ≤ v / 2 ^ 52 := by
  obtain ⟨hlo, hhi⟩ := (C101_abs_mean A N c eps hc he').1 f
  unfold alphaBetaF
  simp only
  generalize meanLinkF A N c eps f = m at *
  have hv0 : 0 < v := lt_of_lt_of_le (by positivity) hv
  have hbig : (2 : ℝ) ^ 500 ≤ 2 ^ 1023 := pow_le_pow_right₀ (by norm_num) (by norm_num)
  have hsm : ∀ k : Nat, k ≤ 1022 → (1 : ℝ) / 2 ^ 1022 ≤ 1 / 2 ^ k := fun k hk =>
    one_div_le_one_div_of_le (by positivity) (pow_le_pow_right₀ (by norm_num) hk)
  have hm1 : m ≤ (1 + 1 / 2 ^ 52) * (1 - eps) := by
    refine hhi.trans (A.rel ?_ ?_).2
    · refine (hsm 1 (by norm_num)).trans ?_
      norm_num
      linarith
    · refine le_trans ?_ (one_le_pow₀ (by norm_num : (1 : ℝ) ≤ 2))
      have : (0 : ℝ) ≤ 1 / 2 ^ 50 := by positivity
      linarith
  have hm2 : m ≤ (1 + 1 / 2 ^ 52) * (1 - 1 / 2 ^ 50) :=
    hm1.trans (mul_le_mul_of_nonneg_left (by linarith) (by norm_num))
  have hml : 1 / 2 ^ 50 ≤ m := he.trans hlo
  have hmle : m ≤ 1 := hm2.trans (by norm_num)
  have hm0 : 0 < m := lt_of_lt_of_le (by positivity) hml
  have hvm : 1 / 2 ^ 550 ≤ v * m := by
    calc (1 : ℝ) / 2 ^ 550 = 1 / 2 ^ 500 * (1 / 2 ^ 50) := by rw [div_mul_div_comm, ← pow_add, one_mul]
      _ ≤ v * m := mul_le_mul hv hml (by positivity) hv0.le
  have hvm' : v * m ≤ v := mul_le_of_le_one_right hv0.le hmle
  obtain ⟨ha1, ha2⟩ := A.rel (x := v * m) ((hsm 550 (by norm_num)).trans hvm) (hvm'.trans (hv'.trans hbig))
  have hapos : 0 < A.rnd (v * m) := A.pos (le_trans (by
    exact one_div_le_one_div_of_le (by positivity) (pow_le_pow_right₀ (by norm_num) (by norm_num))) hvm)
  generalize A.rnd (v * m) = a at *
  have hgap : v / 2 ^ 53 ≤ v - a := by
    have h1 : a ≤ (1 + 1 / 2 ^ 52) * (v * ((1 + 1 / 2 ^ 52) * (1 - 1 / 2 ^ 50))) :=
      ha2.trans (mul_le_mul_of_nonneg_left (mul_le_mul_of_nonneg_left hm2 hv0.le) (by norm_num))
    norm_num at h1 ⊢
    linarith
  have hgap2 : 1 / 2 ^ 553 ≤ v - a := by
    calc (1 : ℝ) / 2 ^ 553 = 1 / 2 ^ 500 / 2 ^ 53 := by rw [div_div, ← pow_add]
      _ ≤ v / 2 ^ 53 := div_le_div_of_nonneg_right hv (by positivity)
      _ ≤ _ := hgap
  have hva : v - a ≤ v := by linarith
  have hgp : (0 : ℝ) < v / 2 ^ 53 := by positivity
  refine ⟨hapos, A.pos (le_trans ?_ hgap2), by linarith, ?_⟩
  · exact one_div_le_one_div_of_le (by positivity) (pow_le_pow_right₀ (by norm_num) (by norm_num))
  · obtain ⟨hb1, hb2⟩ := A.rel (x := v - a) ((hsm 553 (by norm_num)).trans hgap2) (hva.trans (hv'.trans hbig))
    generalize A.rnd (v - a) = b at *
    rw [abs_le]
    norm_num at hb1 hb2 ⊢
    constructor <;> linarith

/-- The defaults `v = 80` and `eps = 1e-10`. -/
example : (1 : ℝ) / 2 ^ 500 ≤ 80 ∧ (80 : ℝ) ≤ 2 ^ 500 ∧ (1 : ℝ) / 2 ^ 50 ≤ 1 / 10 ^ 10 ∧ (1 : ℝ) / 10 ^ 10 ≤ 1 / 4 := by
  refine ⟨?_, ?_, by norm_num, by norm_num⟩
  · have : (1 : ℝ) ≤ 2 ^ 500 := one_le_pow₀ (by norm_num)
    exact ((div_le_one (by positivity)).2 this).trans (by norm_num)
  · calc (80 : ℝ) ≤ 2 ^ 7 := by norm_num
      _ ≤ 2 ^ 500 := pow_le_pow_right₀ (by norm_num) (by norm_num)

end Lop.Props
