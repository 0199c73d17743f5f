import Verif.Proofs.Float
import Verif.Spec.Binary64

/-! # C98: the rounding of the models with rounding is that of IEEE 754 binary64 -/

namespace Lop.Props

open Lop Lop.Spec

theorem rne_nearest (z : ℝ) (m : ℤ) : |(rne z : ℝ) - z| ≤ |(m : ℝ) - z| := by
  by_cases h : m = rne z
  · rw [h]
  · have h1 : (1 : ℝ) ≤ |(m : ℝ) - rne z| := by
      rw [← Int.cast_sub, ← Int.cast_abs]
      exact_mod_cast Int.one_le_abs (sub_ne_zero.2 h)
    have h2 := rne_err z
    have h3 := abs_sub_le (m : ℝ) z (rne z)
    rw [abs_sub_comm z] at h3
    linarith

theorem roundPos_nearest_mult {x : ℝ} (m : ℤ) : |roundPos x - x| ≤ |(m : ℝ) * 2 ^ (binExp x - 52) - x| := by
  have hu : (0 : ℝ) < 2 ^ (binExp x - 52) := by positivity
  have h := mul_le_mul_of_nonneg_right (rne_nearest (x / 2 ^ (binExp x - 52)) m) hu.le
  have e : ∀ a : ℝ, |a - x / 2 ^ (binExp x - 52)| * 2 ^ (binExp x - 52) = |a * 2 ^ (binExp x - 52) - x| := by
    intro a
    conv_lhs => rw [← abs_of_pos hu, ← abs_mul, abs_of_pos hu, sub_mul, div_mul_cancel₀ _ hu.ne']
  rw [e, e] at h
  exact h

theorem pow52_mul (e : ℤ) : (((2 ^ 52 : ℤ)) : ℝ) * 2 ^ (e - 52) = 2 ^ e := by
  rw [show (((2 ^ 52 : ℤ)) : ℝ) = (2 : ℝ) ^ (52 : ℤ) by norm_num, ← zpow_add₀ (by norm_num)]
  congr 1
  ring

/-- The numbers `k 2 ^ j` that are not below the binade of `x` are multiples of the distance of neighbours in it. -/
theorem dyadic_mult {x : ℝ} {k j : ℤ} (hk : |k| ≤ 2 ^ 53) (hj : -1074 ≤ j)
    (hy : binExp x = -1022 ∨ (2 : ℝ) ^ binExp x ≤ k * 2 ^ j) : ∃ m : ℤ, (k : ℝ) * 2 ^ j = m * 2 ^ (binExp x - 52) := by
  have large : binExp x - 52 ≤ j → ∃ m : ℤ, (k : ℝ) * 2 ^ j = m * 2 ^ (binExp x - 52) := by
    intro h
    obtain ⟨n, hn⟩ := Int.eq_ofNat_of_zero_le (sub_nonneg.2 h)
    refine ⟨k * 2 ^ n, ?_⟩
    push_cast
    rw [mul_assoc, ← zpow_natCast, ← zpow_add₀ (by norm_num)]
    congr 2
    omega
  rcases hy with hy | hy
  · exact large (by omega)
  · by_cases h : binExp x - 52 ≤ j
    · exact large h
    · have hk' : (k : ℝ) ≤ 2 ^ 53 := by exact_mod_cast (abs_le.1 hk).2
      have h1 : (2 : ℝ) ^ j ≤ 2 ^ (binExp x - 53) := zpow_le_zpow_right₀ (by norm_num) (by omega)
      have hpos : (0 : ℝ) < 2 ^ j := by positivity
      have h2 : (k : ℝ) * 2 ^ j ≤ 2 ^ 53 * 2 ^ (binExp x - 53) :=
        (mul_le_mul_of_nonneg_right hk' hpos.le).trans (mul_le_mul_of_nonneg_left h1 (by positivity))
      have h3 : (2 : ℝ) ^ 53 * 2 ^ (binExp x - 53) = 2 ^ binExp x := by
        rw [← zpow_natCast, ← zpow_add₀ (by norm_num)]
        congr 1
        push_cast
        ring
      rw [h3] at h2
      refine ⟨2 ^ 52, ?_⟩
      rw [le_antisymm h2 hy, pow52_mul]

theorem roundPos_nearest {x : ℝ} (hx : 0 < x) {y : ℝ} (hy : IsBinary64 y) : |roundPos x - x| ≤ |y - x| := by
  obtain ⟨k, j, hk, hj, rfl, -⟩ := hy
  by_cases h : binExp x = -1022 ∨ (2 : ℝ) ^ binExp x ≤ k * 2 ^ j
  · obtain ⟨m, hm⟩ := dyadic_mult hk hj h
    rw [hm]
    exact roundPos_nearest_mult m
  · push Not at h
    have hlt : -1022 < binExp x := lt_of_le_of_ne (le_max_right _ _) (Ne.symm h.1)
    have h1 := binExp_le hx hlt
    have h2 := roundPos_nearest_mult (x := x) (2 ^ 52)
    rw [pow52_mul, abs_of_nonpos (sub_nonpos.2 h1)] at h2
    refine h2.trans ?_
    rw [abs_of_nonpos (by linarith [h.2])]
    linarith [h.2]

/-- C98 (the rounding): `round64` gives a binary64 number, and no binary64 number is nearer, for every real number up to the largest finite one. -/
theorem C98_binary64_nearest (x : ℝ) (hx : |x| ≤ (2 ^ 53 - 1) * 2 ^ 971) :
    IsBinary64 (round64 x) ∧ ∀ y, IsBinary64 y → |round64 x - x| ≤ |y - x| := by
  have hneg : ∀ y, IsBinary64 y → IsBinary64 (-y) := by
    rintro y ⟨k, j, hk, hj, h, hb⟩
    exact ⟨-k, j, by rwa [abs_neg], hj, by rw [h]; push_cast; ring, by rwa [abs_neg]⟩
  have pos : ∀ x : ℝ, 0 ≤ x → x ≤ (2 ^ 53 - 1) * 2 ^ 971 → IsBinary64 (round64 x) ∧ ∀ y, IsBinary64 y → |round64 x - x| ≤ |y - x| := by
    intro x h0 hb
    have e := round64_eq_roundPos h0 hb
    constructor
    · obtain ⟨k, j, hk, hj, hf⟩ := roundPos_form h0
      refine ⟨k, j, by rw [abs_of_nonneg (by positivity)]; exact_mod_cast hk, hj, by rw [e, hf]; push_cast; rfl, ?_⟩
      rw [e, abs_of_nonneg (roundPos_nonneg h0), ← maxFinite, ← roundPos_maxFinite]
      exact roundPos_mono h0 hb
    · intro y hy
      rw [e]
      rcases h0.eq_or_lt with rfl | h
      · rw [roundPos_zero]; simp
      · exact roundPos_nearest h hy
  rcases le_total 0 x with h | h
  · exact pos x h (by rwa [abs_of_nonneg h] at hx)
  · obtain ⟨h1, h2⟩ := pos (-x) (by linarith) (by rwa [abs_of_nonpos h] at hx)
    rw [round64_neg] at h1 h2
    refine ⟨by have := hneg _ h1; rwa [neg_neg] at this, fun y hy => ?_⟩
    have := h2 (-y) (hneg y hy)
    rwa [← neg_add', abs_neg, ← neg_add', abs_neg, ← sub_eq_add_neg, ← sub_eq_add_neg] at this

/-- C98 (the rounding): a number halfway between two neighbouring binary64 numbers is rounded to the one with the even significand. -/
theorem C98_binary64_ties (n : Nat) (hn : 2 ^ 52 ≤ n) (hn' : n < 2 ^ 53) (j : ℤ) (hj : -1074 ≤ j) (hj' : j ≤ 970) :
    round64 ((n + 1 / 2) * 2 ^ j) = if Even n then (n : ℝ) * 2 ^ j else ((n : ℝ) + 1) * 2 ^ j := by
  have hp : (0 : ℝ) < 2 ^ j := by positivity
  have h1 : (2 : ℝ) ^ 52 ≤ n := by exact_mod_cast hn
  have h2 : (n : ℝ) + 1 ≤ 2 ^ 53 := by exact_mod_cast hn'
  have hx : (0 : ℝ) < (n + 1 / 2) * 2 ^ j := by positivity
  have hlog : Int.log 2 (((n : ℝ) + 1 / 2) * 2 ^ j) = 52 + j := by
    apply le_antisymm
    · rw [← Int.lt_add_one_iff, ← Int.lt_zpow_iff_log_lt (by norm_num) hx]
      push_cast
      rw [show 52 + j + 1 = 53 + j by ring, zpow_add₀ (by norm_num)]
      refine mul_lt_mul_of_pos_right ?_ hp
      have : (2 : ℝ) ^ (53 : ℤ) = 2 ^ 53 := by norm_cast
      rw [this]
      linarith
    · rw [← Int.zpow_le_iff_le_log (by norm_num) hx]
      push_cast
      rw [zpow_add₀ (by norm_num)]
      refine mul_le_mul_of_nonneg_right ?_ hp.le
      have : (2 : ℝ) ^ (52 : ℤ) = 2 ^ 52 := by norm_cast
      rw [this]
      linarith
  have he : binExp (((n : ℝ) + 1 / 2) * 2 ^ j) - 52 = j := by
    unfold binExp
    rw [hlog]
    omega
  have hfl : ⌊(n : ℝ) + 1 / 2⌋ = n := by
    rw [Int.floor_eq_iff]
    constructor <;> push_cast <;> linarith
  have hfr : Int.fract ((n : ℝ) + 1 / 2) = 1 / 2 := by
    rw [Int.fract, hfl]
    push_cast
    ring
  have hrne : (rne ((n : ℝ) + 1 / 2) : ℝ) = if Even n then (n : ℝ) else n + 1 := by
    unfold rne
    rw [hfr, hfl, if_neg (lt_irrefl _), if_neg (lt_irrefl _)]
    by_cases h : Even n
    · rw [if_pos h, if_pos (by exact_mod_cast h)]; simp
    · rw [if_neg h, if_neg (by exact_mod_cast h)]; simp
  have hb : ((n : ℝ) + 1 / 2) * 2 ^ j ≤ maxFinite := by
    unfold maxFinite
    have h3 : (2 : ℝ) ^ j ≤ 2 ^ (970 : ℤ) := zpow_le_zpow_right₀ (by norm_num) hj'
    have h4 : (2 : ℝ) ^ (970 : ℤ) = 2 ^ 970 := zpow_natCast (2 : ℝ) 970
    have h5 : (2 : ℝ) ^ 971 = 2 * 2 ^ 970 := by rw [pow_succ]; ring
    rw [h4] at h3
    rw [h5]
    have h6 : (0 : ℝ) < 2 ^ 970 := by positivity
    calc ((n : ℝ) + 1 / 2) * 2 ^ j ≤ 2 ^ 53 * 2 ^ 970 := mul_le_mul (by linarith) h3 hp.le (by positivity)
      _ ≤ ((2 ^ 53 - 1) * 2) * 2 ^ 970 := mul_le_mul_of_nonneg_right (by norm_num) h6.le
      _ = _ := by ring
  rw [round64_eq_roundPos hx.le hb, roundPos, he, mul_div_assoc, div_self hp.ne', mul_one, hrne]
  split_ifs <;> rfl

/-- Halfway between 1 and the next number above it. -/
example : round64 ((2 ^ 52 + 1 / 2) * 2 ^ (-52 : ℤ)) = 1 := by
  have h := C98_binary64_ties (2 ^ 52) le_rfl (by norm_num) (-52) (by norm_num) (by norm_num)
  rw [if_pos ((Nat.even_pow.2 ⟨even_two, by norm_num⟩))] at h
  have e : ((2 ^ 52 : ℕ) : ℝ) * 2 ^ (-52 : ℤ) = 1 := by norm_num
  rw [e] at h
  exact_mod_cast h

example : |(1 / 10 : ℝ)| ≤ (2 ^ 53 - 1) * 2 ^ 971 := by
  rw [abs_of_nonneg (by norm_num)]
  exact le_trans (by norm_num) (one_le_mul_of_one_le_of_one_le (by norm_num) (one_le_pow₀ (by norm_num)))

end Lop.Props
