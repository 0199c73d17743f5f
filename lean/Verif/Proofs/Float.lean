import Verif.Model.Float
import Mathlib.Algebra.Order.Field.Power
import Mathlib.Tactic.Linarith
import Mathlib.Tactic.Positivity
import Mathlib.Tactic.NormNum
import Mathlib.Tactic.Ring
import Mathlib.Tactic.FieldSimp
import Mathlib.Tactic.NormNum.Pow

/-! # Helper lemmas about floating-point rounding -/

namespace Lop

lemma rne_floor (z : ℝ) : ⌊z⌋ ≤ rne z ∧ rne z ≤ ⌊z⌋ + 1 := by
  unfold rne
  split_ifs <;> constructor <;> omega

lemma rne_int (n : ℤ) : rne (n : ℝ) = n := by
  simp [rne]

lemma rne_mono : Monotone rne := by
  intro z w h
  have hf := Int.floor_le_floor h
  rcases lt_or_eq_of_le hf with hlt | heq
  · have := (rne_floor z).2
    have := (rne_floor w).1
    omega
  · have hfr : Int.fract z ≤ Int.fract w := by
      unfold Int.fract
      rw [heq]
      linarith
    unfold rne
    rw [heq]
    split_ifs <;> first | omega | (exfalso; linarith)

lemma rne_err (z : ℝ) : |(rne z : ℝ) - z| ≤ 1 / 2 := by
  have h1 : z = ⌊z⌋ + Int.fract z := (Int.floor_add_fract z).symm
  have h0 := Int.fract_nonneg z
  have h2 := Int.fract_lt_one z
  unfold rne
  split_ifs <;> rw [abs_le] <;> constructor <;> push_cast <;> linarith

lemma rne_small {k : ℤ} {t : ℝ} (hk : Even k) (h0 : 0 ≤ t) (h1 : t ≤ 1 / 2) : rne (k + t) = k := by
  have hfl : ⌊(k : ℝ) + t⌋ = k := by
    rw [Int.floor_eq_iff]
    constructor <;> linarith
  have hfr : Int.fract ((k : ℝ) + t) = t := by
    unfold Int.fract
    rw [hfl]
    ring
  unfold rne
  rw [hfl, hfr]
  split_ifs <;> first | rfl | (exfalso; linarith)

/-- The unit in the last place. -/
private lemma ulp_pos (x : ℝ) : (0 : ℝ) < 2 ^ (binExp x - 52) := by positivity

lemma lt_binExp {x : ℝ} (hx : 0 < x) : x < 2 ^ (binExp x + 1) := by
  have h := Int.lt_zpow_succ_log_self (b := 2) (by norm_num) x
  push_cast at h
  refine h.trans_le ?_
  exact zpow_le_zpow_right₀ (by norm_num) (by unfold binExp; omega)

lemma binExp_le {x : ℝ} (hx : 0 < x) (h : -1022 < binExp x) : (2 : ℝ) ^ binExp x ≤ x := by
  have h1 := Int.zpow_log_le_self (b := 2) (by norm_num) hx
  push_cast at h1
  have : binExp x = Int.log 2 x := by
    unfold binExp at *
    omega
  rwa [this]

lemma binExp_mono {x y : ℝ} (hx : 0 < x) (h : x ≤ y) : binExp x ≤ binExp y := by
  unfold binExp
  exact max_le_max (Int.log_mono_right hx h) le_rfl

/-- The rounding without the limit. -/
noncomputable def roundPos (x : ℝ) : ℝ := rne (x / 2 ^ (binExp x - 52)) * 2 ^ (binExp x - 52)

private lemma zpow53 (e : ℤ) : (2 : ℝ) ^ (e + 1) = 2 ^ 53 * 2 ^ (e - 52) := by
  rw [← zpow_natCast, ← zpow_add₀ (by norm_num)]
  congr 1
  push_cast
  ring

private lemma zpow52 (e : ℤ) : (2 : ℝ) ^ e = 2 ^ 52 * 2 ^ (e - 52) := by
  rw [← zpow_natCast, ← zpow_add₀ (by norm_num)]
  congr 1
  push_cast
  ring

lemma roundPos_le {x : ℝ} (hx : 0 < x) : roundPos x ≤ 2 ^ (binExp x + 1) := by
  unfold roundPos
  have h1 : x / 2 ^ (binExp x - 52) ≤ ((2 ^ 53 : ℤ) : ℝ) := by
    rw [div_le_iff₀ (ulp_pos x)]
    have := (lt_binExp hx).le
    rw [zpow53] at this
    exact_mod_cast this
  have h2 := rne_mono h1
  rw [rne_int] at h2
  rw [zpow53]
  have h3 : (rne (x / 2 ^ (binExp x - 52)) : ℝ) ≤ 2 ^ 53 := by exact_mod_cast h2
  exact mul_le_mul_of_nonneg_right h3 (ulp_pos x).le

lemma le_roundPos {x : ℝ} (hx : 0 < x) (h : -1022 < binExp x) : (2 : ℝ) ^ binExp x ≤ roundPos x := by
  unfold roundPos
  have h1 : ((2 ^ 52 : ℤ) : ℝ) ≤ x / 2 ^ (binExp x - 52) := by
    rw [le_div_iff₀ (ulp_pos x)]
    have := binExp_le hx h
    rw [zpow52] at this
    exact_mod_cast this
  have h2 := rne_mono h1
  rw [rne_int] at h2
  rw [zpow52 (binExp x)]
  have h3 : (2 : ℝ) ^ 52 ≤ rne (x / 2 ^ (binExp x - 52)) := by exact_mod_cast h2
  exact mul_le_mul_of_nonneg_right h3 (ulp_pos x).le

lemma roundPos_zero : roundPos 0 = 0 := by
  have := rne_int 0
  simp only [Int.cast_zero] at this
  simp [roundPos, this]

lemma roundPos_nonneg {x : ℝ} (hx : 0 ≤ x) : 0 ≤ roundPos x := by
  unfold roundPos
  refine mul_nonneg ?_ (ulp_pos x).le
  have h1 : ((0 : ℤ) : ℝ) ≤ x / 2 ^ (binExp x - 52) := by
    rw [Int.cast_zero]
    exact div_nonneg hx (ulp_pos x).le
  have := rne_mono h1
  rw [rne_int] at this
  exact_mod_cast this

lemma roundPos_mono {x y : ℝ} (hx : 0 ≤ x) (h : x ≤ y) : roundPos x ≤ roundPos y := by
  rcases hx.eq_or_lt with rfl | hx
  · rw [roundPos_zero]
    exact roundPos_nonneg h
  have hy := hx.trans_le h
  rcases (binExp_mono hx h).eq_or_lt with he | he
  · unfold roundPos
    rw [he]
    refine mul_le_mul_of_nonneg_right ?_ (ulp_pos y).le
    exact_mod_cast rne_mono (div_le_div_of_nonneg_right h (ulp_pos y).le)
  · have hlow : -1022 < binExp y := lt_of_le_of_lt (by unfold binExp; omega) he
    calc roundPos x ≤ 2 ^ (binExp x + 1) := roundPos_le hx
      _ ≤ 2 ^ binExp y := zpow_le_zpow_right₀ (by norm_num) (by omega)
      _ ≤ roundPos y := le_roundPos hy hlow

lemma roundPos_err {x : ℝ} (hx : 0 < x) : |roundPos x - x| ≤ 2 ^ (binExp x - 52) / 2 := by
  have h := rne_err (x / 2 ^ (binExp x - 52))
  have e : roundPos x - x = (rne (x / 2 ^ (binExp x - 52)) - x / 2 ^ (binExp x - 52)) * 2 ^ (binExp x - 52) := by
    unfold roundPos
    rw [sub_mul, div_mul_cancel₀ _ (ulp_pos x).ne']
  rw [e, abs_mul, abs_of_pos (ulp_pos x)]
  have := mul_le_mul_of_nonneg_right h (ulp_pos x).le
  linarith

lemma ulp_normal {x : ℝ} (hx : 0 < x) (h : -1022 < binExp x) : (2 : ℝ) ^ (binExp x - 52) / 2 ≤ x / 2 ^ 53 := by
  have h1 := binExp_le hx h
  rw [zpow52] at h1
  rw [div_le_div_iff₀ (by norm_num) (by positivity)]
  calc (2 : ℝ) ^ (binExp x - 52) * 2 ^ 53 = (2 ^ 52 * 2 ^ (binExp x - 52)) * 2 := by ring
    _ ≤ x * 2 := by linarith

/-- Multiples of a large enough power of two with at most 53 bits are not changed. -/
lemma roundPos_dyadic {k : ℕ} (hk : k ≤ 2 ^ 53) {j : ℤ} (hj : -1074 ≤ j) :
    roundPos (k * 2 ^ j) = k * 2 ^ j := by
  have main : ∀ (k : ℕ) (j : ℤ), 0 < k → k < 2 ^ 53 → -1074 ≤ j → roundPos (k * 2 ^ j) = k * 2 ^ j := by
    intro k j hk0 hk hj
    have hx : (0 : ℝ) < k * 2 ^ j := by positivity
    have hlog : Int.log 2 ((k : ℝ) * 2 ^ j) < 53 + j := by
      by_contra hc
      push Not at hc
      have h1 := Int.zpow_log_le_self (b := 2) (by norm_num) hx
      push_cast at h1
      have h2 : (2 : ℝ) ^ (53 + j) ≤ 2 ^ Int.log 2 ((k : ℝ) * 2 ^ j) := zpow_le_zpow_right₀ (by norm_num) hc
      have h3 := h2.trans h1
      rw [zpow_add₀ (by norm_num)] at h3
      have h4 : (2 : ℝ) ^ (53 : ℤ) ≤ k := le_of_mul_le_mul_right h3 (by positivity)
      have h5 : ((2 ^ 53 : ℕ) : ℝ) ≤ k := by push_cast; exact_mod_cast h4
      have : 2 ^ 53 ≤ k := by exact_mod_cast h5
      omega
    have he : binExp ((k : ℝ) * 2 ^ j) - 52 ≤ j := by
      unfold binExp
      omega
    obtain ⟨m, hm⟩ := Int.eq_ofNat_of_zero_le (sub_nonneg.2 he)
    have hq : (k : ℝ) * 2 ^ j / 2 ^ (binExp ((k : ℝ) * 2 ^ j) - 52) = ((k * 2 ^ m : ℤ) : ℝ) := by
      rw [div_eq_iff (ulp_pos _).ne']
      push_cast
      rw [mul_assoc, ← zpow_natCast, ← zpow_add₀ (by norm_num)]
      congr 2
      omega
    unfold roundPos
    rw [hq, rne_int, ← hq, div_mul_cancel₀ _ (ulp_pos _).ne']
  rcases Nat.eq_zero_or_pos k with rfl | hk0
  · simp [roundPos_zero]
  rcases Nat.lt_or_ge k (2 ^ 53) with h | h
  · exact main k j hk0 h hj
  · obtain rfl : k = 2 ^ 53 := le_antisymm hk h
    have e : (((2 ^ 53 : ℕ) : ℝ)) * 2 ^ j = ((2 ^ 52 : ℕ) : ℝ) * 2 ^ (j + 1) := by
      rw [zpow_add₀ (by norm_num)]
      push_cast
      ring
    rw [e]
    exact main (2 ^ 52) (j + 1) (by positivity) (by norm_num) (by omega)

lemma roundPos_form {x : ℝ} (hx : 0 ≤ x) :
    ∃ (k : ℕ) (j : ℤ), k ≤ 2 ^ 53 ∧ -1074 ≤ j ∧ roundPos x = k * 2 ^ j := by
  rcases hx.eq_or_lt with rfl | hx
  · exact ⟨0, 0, by positivity, by norm_num, by simp [roundPos_zero]⟩
  refine ⟨(rne (x / 2 ^ (binExp x - 52))).toNat, binExp x - 52, ?_, by unfold binExp; omega, ?_⟩
  · have h1 : x / 2 ^ (binExp x - 52) ≤ ((2 ^ 53 : ℤ) : ℝ) := by
      rw [div_le_iff₀ (ulp_pos x)]
      have := (lt_binExp hx).le
      rw [zpow53] at this
      exact_mod_cast this
    have h2 := rne_mono h1
    rw [rne_int] at h2
    omega
  · have h1 : ((0 : ℤ) : ℝ) ≤ x / 2 ^ (binExp x - 52) := by
      rw [Int.cast_zero]
      exact div_nonneg hx.le (ulp_pos x).le
    have h2 := rne_mono h1
    rw [rne_int] at h2
    unfold roundPos
    congr 1
    have : ((rne (x / 2 ^ (binExp x - 52))).toNat : ℤ) = rne (x / 2 ^ (binExp x - 52)) := Int.toNat_of_nonneg h2
    exact_mod_cast this.symm

lemma maxFinite_eq : maxFinite = ((2 ^ 53 - 1 : ℕ) : ℝ) * 2 ^ (971 : ℤ) := by
  unfold maxFinite
  norm_num

lemma maxFinite_nonneg : 0 ≤ maxFinite := by
  rw [maxFinite_eq]
  positivity

lemma roundPos_maxFinite : roundPos maxFinite = maxFinite := by
  rw [maxFinite_eq]
  exact roundPos_dyadic (by norm_num) (by norm_num)

lemma round64Pos_eq (x : ℝ) : round64Pos x = min maxFinite (roundPos x) := rfl

lemma round64_nonneg {x : ℝ} (hx : 0 ≤ x) : round64 x = round64Pos x := by
  rw [round64, if_pos hx]

lemma round64Pos_zero : round64Pos 0 = 0 := by
  rw [round64Pos_eq, roundPos_zero, min_eq_right maxFinite_nonneg]

lemma round64_neg (x : ℝ) : round64 (-x) = -round64 x := by
  rcases lt_trichotomy x 0 with h | rfl | h
  · rw [round64, if_pos (by linarith), round64, if_neg (by linarith), neg_neg]
  · simp [round64, round64Pos_zero]
  · rw [round64, if_neg (by linarith), neg_neg, round64_nonneg h.le]

lemma round64Pos_mono {x y : ℝ} (hx : 0 ≤ x) (h : x ≤ y) : round64Pos x ≤ round64Pos y := by
  simp only [round64Pos_eq]
  exact min_le_min le_rfl (roundPos_mono hx h)

lemma round64Pos_nonneg {x : ℝ} (hx : 0 ≤ x) : 0 ≤ round64Pos x := by
  rw [round64Pos_eq]
  exact le_min maxFinite_nonneg (roundPos_nonneg hx)

lemma round64_mono : Monotone round64 := by
  intro x y h
  by_cases hx : 0 ≤ x
  · rw [round64_nonneg hx, round64_nonneg (hx.trans h)]
    exact round64Pos_mono hx h
  · by_cases hy : 0 ≤ y
    · rw [round64, if_neg hx, round64_nonneg hy]
      have := round64Pos_nonneg (x := -x) (by linarith)
      have := round64Pos_nonneg hy
      linarith
    · rw [round64, if_neg hx, round64, if_neg hy]
      have := round64Pos_mono (x := -y) (y := -x) (by linarith) (by linarith)
      linarith

lemma round64Pos_idem {x : ℝ} (hx : 0 ≤ x) : round64Pos (round64Pos x) = round64Pos x := by
  rcases le_total maxFinite (roundPos x) with h | h
  · rw [round64Pos_eq x, min_eq_left h, round64Pos_eq, roundPos_maxFinite, min_self]
  · rw [round64Pos_eq x, min_eq_right h, round64Pos_eq]
    obtain ⟨k, j, hk, hj, e⟩ := roundPos_form hx
    have : roundPos (roundPos x) = roundPos x := by
      rw [e]
      exact roundPos_dyadic hk hj
    rw [this, min_eq_right h]

lemma round64_idem (x : ℝ) : round64 (round64 x) = round64 x := by
  have key : ∀ x, 0 ≤ x → round64 (round64 x) = round64 x := by
    intro x hx
    rw [round64_nonneg hx, round64_nonneg (round64Pos_nonneg hx), round64Pos_idem hx]
  by_cases hx : 0 ≤ x
  · exact key x hx
  · have h := key (-x) (by linarith)
    rw [round64_neg, round64_neg] at h
    linarith

lemma round64_dyadic {k : ℕ} (hk : k ≤ 2 ^ 53) {j : ℤ} (hj : -1074 ≤ j) (hm : (k : ℝ) * 2 ^ j ≤ maxFinite) :
    round64 (k * 2 ^ j) = k * 2 ^ j := by
  rw [round64_nonneg (by positivity), round64Pos_eq, roundPos_dyadic hk hj, min_eq_right hm]

lemma big_le_maxFinite : (2 : ℝ) ^ 1023 ≤ maxFinite := by
  unfold maxFinite
  have : (2 : ℝ) ^ 1023 = 2 ^ 52 * 2 ^ 971 := by rw [← pow_add]
  rw [this]
  refine mul_le_mul_of_nonneg_right ?_ (by positivity)
  norm_num

lemma round64_eq_roundPos {x : ℝ} (hx : 0 ≤ x) (hb : x ≤ maxFinite) : round64 x = roundPos x := by
  rw [round64_nonneg hx, round64Pos_eq, min_eq_right]
  rw [← roundPos_maxFinite]
  exact roundPos_mono hx hb

lemma round64_err (x : ℝ) (hb : |x| ≤ 2 ^ 1023) : |round64 x - x| ≤ |x| / 2 ^ 53 + 1 / 2 ^ 1075 := by
  have key : ∀ x : ℝ, 0 ≤ x → x ≤ 2 ^ 1023 → |round64 x - x| ≤ x / 2 ^ 53 + 1 / 2 ^ 1075 := by
    intro x hx hb
    rw [round64_eq_roundPos hx (hb.trans big_le_maxFinite)]
    rcases hx.eq_or_lt with rfl | hx
    · simp [roundPos_zero]
    have h1 := roundPos_err hx
    by_cases he : -1022 < binExp x
    · have h2 := ulp_normal hx he
      have : (0 : ℝ) ≤ 1 / 2 ^ 1075 := by positivity
      linarith
    · have he' : binExp x = -1022 := by unfold binExp at *; omega
      rw [he'] at h1
      have h3 : (2 : ℝ) ^ ((-1022 : ℤ) - 52) / 2 = 1 / 2 ^ 1075 := by
        have e : (2 : ℝ) ^ 1075 = 2 ^ 1074 * 2 := pow_succ _ _
        rw [e, show (-1022 : ℤ) - 52 = -((1074 : ℕ) : ℤ) by norm_num, zpow_neg, zpow_natCast, inv_eq_one_div, div_div]
      rw [h3] at h1
      have : 0 ≤ x / 2 ^ 53 := by positivity
      linarith
  by_cases hx : 0 ≤ x
  · rw [abs_of_nonneg hx] at *
    exact key x hx hb
  · push Not at hx
    have h := key (-x) (by linarith) (by rwa [abs_of_neg hx] at hb)
    rw [round64_neg] at h
    rw [abs_of_neg hx]
    have e : -round64 x - -x = -(round64 x - x) := by ring
    rwa [e, abs_neg] at h

/-- Representable numbers are integer multiples of the smallest positive number. -/
lemma repr_multiple {x : ℝ} (h : round64 x = x) : ∃ k : ℤ, x = k * 2 ^ (-1074 : ℤ) := by
  have key : ∀ x : ℝ, 0 ≤ x → round64 x = x → ∃ k : ℤ, x = k * 2 ^ (-1074 : ℤ) := by
    intro x hx h
    have hform : ∃ (k : ℕ) (j : ℤ), -1074 ≤ j ∧ x = k * 2 ^ j := by
      rw [round64_nonneg hx, round64Pos_eq] at h
      rcases le_total maxFinite (roundPos x) with hm | hm
      · rw [min_eq_left hm] at h
        rw [← h, maxFinite_eq]
        exact ⟨_, _, by norm_num, rfl⟩
      · rw [min_eq_right hm] at h
        obtain ⟨k, j, -, hj, e⟩ := roundPos_form hx
        exact ⟨k, j, hj, h ▸ e⟩
    obtain ⟨k, j, hj, e⟩ := hform
    obtain ⟨m, hm⟩ := Int.eq_ofNat_of_zero_le (show 0 ≤ j + 1074 by omega)
    refine ⟨k * 2 ^ m, ?_⟩
    rw [e]
    push_cast
    rw [mul_assoc, ← zpow_natCast, ← zpow_add₀ (by norm_num)]
    congr 2
    omega
  by_cases hx : 0 ≤ x
  · exact key x hx h
  · obtain ⟨k, hk⟩ := key (-x) (by linarith) (by rw [round64_neg, h])
    exact ⟨-k, by push_cast; linarith⟩

lemma round64_err_add (x y : ℝ) (hx : round64 x = x) (hy : round64 y = y) (hb : |x + y| ≤ 2 ^ 1023) :
    |round64 (x + y) - (x + y)| ≤ |x + y| / 2 ^ 53 := by
  obtain ⟨a, ha⟩ := repr_multiple hx
  obtain ⟨b, hb'⟩ := repr_multiple hy
  have hs : x + y = ((a + b : ℤ) : ℝ) * 2 ^ (-1074 : ℤ) := by
    rw [ha, hb']
    push_cast
    ring
  have key : ∀ (s : ℝ) (c : ℤ), 0 ≤ s → s = c * 2 ^ (-1074 : ℤ) → s ≤ 2 ^ 1023 → |round64 s - s| ≤ s / 2 ^ 53 := by
    intro s c h0 hc hb
    rw [round64_eq_roundPos h0 (hb.trans big_le_maxFinite)]
    rcases h0.eq_or_lt with rfl | h0
    · simp [roundPos_zero]
    by_cases he : -1022 < binExp s
    · exact (roundPos_err h0).trans (ulp_normal h0 he)
    · have he' : binExp s = -1022 := by unfold binExp at *; omega
      have : roundPos s = s := by
        unfold roundPos
        rw [he', show (-1022 : ℤ) - 52 = -1074 by norm_num]
        have : s / 2 ^ (-1074 : ℤ) = c := by
          rw [hc]
          exact mul_div_cancel_right₀ _ (by positivity)
        rw [this, rne_int, ← hc]
      rw [this, sub_self, abs_zero]
      positivity
  by_cases h0 : 0 ≤ x + y
  · rw [abs_of_nonneg h0] at *
    exact key _ _ h0 hs hb
  · push Not at h0
    rw [abs_of_neg h0] at *
    have h := key (-(x + y)) (-(a + b)) (by linarith) (by rw [hs]; push_cast; ring) hb
    rw [round64_neg] at h
    have e : -round64 (x + y) - -(x + y) = -(round64 (x + y) - (x + y)) := by ring
    rwa [e, abs_neg] at h

/-- The arithmetic of IEEE 754 binary64. -/
noncomputable def binary64 : FloatArith where
  rnd := round64
  mono := round64_mono
  neg := round64_neg
  idem := round64_idem
  nat := by
    intro n hn
    have h := round64_dyadic (k := n) hn (j := 0) (by norm_num) (by
      rw [zpow_zero, mul_one]
      have h1 : (n : ℝ) ≤ 2 ^ 53 := by exact_mod_cast hn
      refine h1.trans (le_trans ?_ big_le_maxFinite)
      exact pow_le_pow_right₀ (by norm_num) (by norm_num))
    simpa using h
  err := round64_err
  err_add := round64_err_add

/-- Adding at most half a unit in the last place to a power of two changes nothing. -/
lemma round64_absorb {k : ℤ} (hk : -1022 ≤ k) (hk' : k ≤ 1022) {t : ℝ} (h0 : 0 ≤ t) (h1 : t ≤ 2 ^ (k - 53)) :
    round64 (2 ^ k + t) = 2 ^ k := by
  have hp : (0 : ℝ) < 2 ^ k := by positivity
  have ht : t < 2 ^ k := h1.trans_lt (zpow_lt_zpow_right₀ (by norm_num) (by omega))
  have hlog : Int.log 2 ((2 : ℝ) ^ k + t) = k := by
    apply le_antisymm
    · rw [← Int.lt_add_one_iff]
      have h := Int.lt_zpow_iff_log_lt (b := 2) (R := ℝ) (x := k + 1) (r := 2 ^ k + t) (by norm_num) (by positivity)
      rw [← h]
      push_cast
      rw [zpow_add₀ (by norm_num), zpow_one]
      linarith
    · have h := Int.zpow_le_iff_le_log (b := 2) (R := ℝ) (x := k) (r := 2 ^ k + t) (by norm_num) (by positivity)
      rw [← h]
      push_cast
      linarith
  have he : binExp ((2 : ℝ) ^ k + t) = k := by
    unfold binExp
    rw [hlog]
    omega
  have hb : (2 : ℝ) ^ k + t ≤ maxFinite := by
    refine le_trans ?_ big_le_maxFinite
    have : (2 : ℝ) ^ k ≤ 2 ^ (1022 : ℤ) := zpow_le_zpow_right₀ (by norm_num) hk'
    have e : (2 : ℝ) ^ 1023 = 2 ^ (1022 : ℤ) + 2 ^ (1022 : ℤ) := by
      rw [← two_mul, show (1022 : ℤ) = ((1022 : ℕ) : ℤ) by norm_num, zpow_natCast, ← pow_succ']
    rw [e]
    linarith
  rw [round64_eq_roundPos (by positivity) hb]
  unfold roundPos
  rw [he]
  have hq : ((2 : ℝ) ^ k + t) / 2 ^ (k - 52) = ((2 ^ 52 : ℤ) : ℝ) + t / 2 ^ (k - 52) := by
    rw [add_div]
    congr 1
    rw [div_eq_iff (by positivity), zpow52 k]
    norm_num
  have hu : (0 : ℝ) < 2 ^ (k - 52) := by positivity
  rw [hq, rne_small (by decide) (by positivity)]
  · rw [zpow52 k]
    norm_num
  · rw [div_le_iff₀ hu]
    refine h1.trans (le_of_eq ?_)
    rw [show k - 52 = (k - 53) + 1 by ring, zpow_add₀ (by norm_num), zpow_one]
    ring

/-- Numbers up to `2^-1075` are rounded to 0. -/
lemma round64_underflow {t : ℝ} (h0 : 0 ≤ t) (h1 : t ≤ 2 ^ (-1075 : ℤ)) : round64 t = 0 := by
  rcases h0.eq_or_lt with rfl | hp
  · rw [round64_nonneg le_rfl, round64Pos_zero]
  have he : binExp t = -1022 := by
    refine max_eq_right ?_
    by_contra h
    push Not at h
    have h2 : (2 : ℝ) ^ Int.log 2 t ≤ t := by
      have := Int.zpow_log_le_self (b := 2) (by norm_num) hp
      exact_mod_cast this
    have h3 : (2 : ℝ) ^ (-1022 : ℤ) ≤ 2 ^ Int.log 2 t := zpow_le_zpow_right₀ (by norm_num) h.le
    have h4 : (2 : ℝ) ^ (-1075 : ℤ) < 2 ^ (-1022 : ℤ) := zpow_lt_zpow_right₀ (by norm_num) (by norm_num)
    linarith
  rw [round64_nonneg h0, round64Pos_eq]
  have hz : roundPos t = 0 := by
    unfold roundPos
    rw [he]
    have h2 : t / 2 ^ ((-1022 : ℤ) - 52) ≤ 1 / 2 := by
      rw [div_le_iff₀ (by positivity)]
      refine h1.trans (le_of_eq ?_)
      rw [show ((-1022 : ℤ) - 52) = -1075 + 1 by norm_num, zpow_add₀ (by norm_num)]
      ring
    have h3 := rne_small (k := 0) (by simp) (t := t / 2 ^ ((-1022 : ℤ) - 52)) (by positivity) h2
    simp only [Int.cast_zero, zero_add] at h3
    rw [h3]
    simp
  rw [hz]
  exact min_eq_right maxFinite_nonneg

/-- Numbers within `2^-55` below 1 are rounded to 1. -/
lemma round64_below_one {t : ℝ} (h0 : 0 ≤ t) (h1 : t ≤ 2 ^ (-55 : ℤ)) : round64 (1 - t) = 1 := by
  have hone : round64 1 = 1 := by
    have := round64_absorb (k := 0) (by norm_num) (by norm_num) (t := 0) le_rfl (by positivity)
    simpa using this
  have hle : round64 (1 - t) ≤ 1 := by
    have := round64_mono (show 1 - t ≤ 1 by linarith)
    rwa [hone] at this
  rcases h0.eq_or_lt with rfl | hp
  · rw [sub_zero, hone]
  have ht : t ≤ 1 / 2 ^ 55 := by
    refine h1.trans (le_of_eq ?_)
    norm_num
  have hpos : 0 < 1 - t := by norm_num at ht; linarith
  have hlog : Int.log 2 (1 - t) = -1 := by
    apply le_antisymm
    · have h := Int.lt_zpow_iff_log_lt (b := 2) (R := ℝ) (x := 0) (r := 1 - t) (by norm_num) hpos
      have : Int.log 2 (1 - t) < 0 := by
        rw [← h, zpow_zero]
        linarith
      omega
    · have h := Int.zpow_le_iff_le_log (b := 2) (R := ℝ) (x := -1) (r := 1 - t) (by norm_num) hpos
      rw [← h]
      norm_num at ht ⊢
      linarith
  have he : binExp (1 - t) = -1 := by
    unfold binExp
    rw [hlog]
    rfl
  apply le_antisymm hle
  have hb : 1 - t ≤ maxFinite := by
    refine le_trans ?_ big_le_maxFinite
    have : (1 : ℝ) ≤ 2 ^ 1023 := one_le_pow₀ (by norm_num)
    exact (show 1 - t ≤ 1 by linarith).trans this
  rw [round64_eq_roundPos hpos.le hb]
  unfold roundPos
  rw [he]
  have hd : (1 - t) / 2 ^ ((-1 : ℤ) - 52) = 2 ^ 53 - t * 2 ^ 53 := by
    rw [show ((-1 : ℤ) - 52) = -53 by norm_num, zpow_neg, div_inv_eq_mul]
    norm_cast
    ring
  have hr := (abs_le.1 (rne_err ((1 - t) / 2 ^ ((-1 : ℤ) - 52)))).1
  rw [hd] at hr
  have hint : (2 ^ 53 : ℤ) ≤ rne ((1 - t) / 2 ^ ((-1 : ℤ) - 52)) := by
    have : (2 ^ 53 - 1 : ℝ) < rne ((1 - t) / 2 ^ ((-1 : ℤ) - 52)) := by
      rw [hd]
      norm_num at ht hr ⊢
      linarith
    have h3 : (2 ^ 53 - 1 : ℤ) < rne ((1 - t) / 2 ^ ((-1 : ℤ) - 52)) := by
      have e : ((2 ^ 53 - 1 : ℤ) : ℝ) = 2 ^ 53 - 1 := by norm_num
      rw [← e] at this
      exact_mod_cast this
    omega
  have hcast : (2 ^ 53 : ℝ) ≤ rne ((1 - t) / 2 ^ ((-1 : ℤ) - 52)) := by exact_mod_cast hint
  have e : (1 : ℝ) = 2 ^ 53 * 2 ^ ((-1 : ℤ) - 52) := by norm_num
  calc (1 : ℝ) = 2 ^ 53 * 2 ^ ((-1 : ℤ) - 52) := e
    _ ≤ _ := mul_le_mul_of_nonneg_right hcast (by positivity)

end Lop
