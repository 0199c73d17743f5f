import Verif.Proofs.Rounded
import Mathlib.Analysis.Complex.ExponentialBounds
import Mathlib.Algebra.BigOperators.Fin
import Mathlib.Algebra.Order.BigOperators.Group.Finset

/-! # Helper lemmas: accuracy of the rounded models -/

namespace Lop

variable {A : FloatArith}

private lemma exp_sub_le {x y : ℝ} : Real.exp x - Real.exp y ≤ (x - y) * Real.exp x := by
  have h := Real.add_one_le_exp (y - x)
  have e : Real.exp y = Real.exp (y - x) * Real.exp x := by
    rw [← Real.exp_add]
    congr 1
    ring
  rw [e]
  nlinarith [Real.exp_pos x]

private lemma exp_half : Real.exp (1 / 2) ≤ 2 := by
  have h : Real.exp (1 / 2) ^ 2 ≤ 2 ^ 2 := by
    rw [← Real.exp_nat_mul]
    norm_num
    linarith [Real.exp_one_lt_d9]
  exact le_of_sq_le_sq h (by norm_num)
where
  le_of_sq_le_sq {a b : ℝ} (h : a ^ 2 ≤ b ^ 2) (hb : 0 ≤ b) : a ≤ b := abs_le_of_sq_le_sq' h hb |>.2

private lemma mul_exp_half {a : ℝ} : a * Real.exp (-a / 2) ≤ 1 := by
  have h1 : a ≤ Real.exp (a / 2) := by
    have h := Real.add_one_le_exp (a / 4)
    by_cases ha : 0 ≤ a
    · have e : Real.exp (a / 2) = Real.exp (a / 4) * Real.exp (a / 4) := by
        rw [← Real.exp_add]
        congr 1
        ring
      rw [e]
      nlinarith [sq_nonneg (a / 4 - 1), Real.exp_pos (a / 4)]
    · have := Real.exp_pos (a / 2)
      linarith
  have e : Real.exp (a / 2) * Real.exp (-a / 2) = 1 := by
    rw [← Real.exp_add]
    convert Real.exp_zero using 2
    ring
  rw [← e]
  exact mul_le_mul_of_nonneg_right h1 (Real.exp_pos _).le

/-- The exponential of a perturbed argument. -/
lemma exp_close {t t' ε τ : ℝ} (ht : t ≤ 0) (hε : 0 ≤ ε) (hε' : ε ≤ 1 / 2) (hτ : 0 ≤ τ) (hτ' : τ ≤ 1 / 2)
    (h : |t' - t| ≤ ε * -t + τ) : |Real.exp t' - Real.exp t| ≤ 2 * ε + 2 * τ := by
  have key : ∀ m, m ≤ t / 2 + 1 / 2 → |t' - t| * Real.exp m ≤ 2 * ε + 2 * τ := by
    intro m hm
    have h1 : Real.exp m ≤ Real.exp (t / 2) * 2 := by
      calc Real.exp m ≤ Real.exp (t / 2 + 1 / 2) := Real.exp_le_exp.2 hm
        _ = Real.exp (t / 2) * Real.exp (1 / 2) := Real.exp_add _ _
        _ ≤ _ := mul_le_mul_of_nonneg_left exp_half (Real.exp_pos _).le
    have h2 := mul_exp_half (a := -t)
    rw [neg_neg] at h2
    have h3 : Real.exp (t / 2) ≤ 1 := Real.exp_le_one_iff.2 (by linarith)
    calc |t' - t| * Real.exp m ≤ (ε * -t + τ) * (Real.exp (t / 2) * 2) :=
          mul_le_mul h h1 (Real.exp_pos _).le ((abs_nonneg _).trans h)
      _ = 2 * (ε * (-t * Real.exp (t / 2))) + 2 * (τ * Real.exp (t / 2)) := by ring
      _ ≤ 2 * (ε * 1) + 2 * (τ * 1) :=
          add_le_add (mul_le_mul_of_nonneg_left (mul_le_mul_of_nonneg_left h2 hε) (by norm_num))
            (mul_le_mul_of_nonneg_left (mul_le_mul_of_nonneg_left h3 hτ) (by norm_num))
      _ = _ := by ring
  obtain ⟨hl, hu⟩ := abs_le.1 h
  have hεt : ε * -t ≤ -t / 2 := by nlinarith
  rcases le_total t t' with hle | hle
  · have h0 : 0 ≤ Real.exp t' - Real.exp t := sub_nonneg.2 (Real.exp_le_exp.2 hle)
    rw [abs_of_nonneg h0]
    refine exp_sub_le.trans ?_
    have := key t' (by linarith)
    rwa [abs_of_nonneg (sub_nonneg.2 hle)] at this
  · have h0 : 0 ≤ Real.exp t - Real.exp t' := sub_nonneg.2 (Real.exp_le_exp.2 hle)
    rw [abs_sub_comm, abs_of_nonneg h0]
    refine exp_sub_le.trans ?_
    have := key t (by linarith)
    rwa [abs_sub_comm, abs_of_nonneg (sub_nonneg.2 hle)] at this

lemma two_pow_le {m n : Nat} (h : m ≤ n) : (2 : ℝ) ^ m ≤ 2 ^ n := pow_le_pow_right₀ (by norm_num) h

lemma inv_pow_le {m n : Nat} (h : m ≤ n) : (1 : ℝ) / 2 ^ n ≤ 1 / 2 ^ m :=
  one_div_le_one_div_of_le (by positivity) (two_pow_le h)

private lemma big_aux {B : ℝ} (h : 1 ≤ B) : 2 * B + 1 ≤ B * 2 ^ 22 := by
  norm_num
  linarith

/-- A product of two roundings `rnd (rnd d * p)`. -/
lemma prod_close (A : FloatArith) {d p : ℝ} (hp : 0 ≤ p) (hp' : p ≤ 2 ^ 500) (hd : |d| ≤ 2 ^ 501) :
    |A.rnd (A.rnd d * p) - d * p| ≤ 3 / 2 ^ 53 * |d * p| + 1 / 2 ^ 500 := by
  have h1 := A.err d (hd.trans (two_pow_le (by norm_num)))
  have h2 : |A.rnd d * p - d * p| ≤ |d * p| / 2 ^ 53 + 1 / 2 ^ 575 := by
    rw [← sub_mul, abs_mul, abs_of_nonneg hp, abs_mul, abs_of_nonneg hp]
    refine (mul_le_mul_of_nonneg_right h1 hp).trans ?_
    have e : (|d| / 2 ^ 53 + 1 / 2 ^ 1075) * p = |d| * p / 2 ^ 53 + 1 / 2 ^ 1075 * p := by ring
    rw [e]
    refine add_le_add le_rfl ?_
    calc (1 : ℝ) / 2 ^ 1075 * p ≤ 1 / 2 ^ 1075 * 2 ^ 500 := mul_le_mul_of_nonneg_left hp' (by positivity)
      _ = 1 / 2 ^ 575 := by
        rw [show (1075 : ℕ) = 575 + 500 by norm_num, pow_add]
        field_simp
  have hdp : |d * p| ≤ 2 ^ 1001 := by
    rw [abs_mul, abs_of_nonneg hp]
    calc |d| * p ≤ 2 ^ 501 * 2 ^ 500 := mul_le_mul hd hp' hp (by positivity)
      _ = 2 ^ 1001 := by rw [← pow_add]
  have hsm : (1 : ℝ) / 2 ^ 575 ≤ 1 := (inv_pow_le (m := 0) (by norm_num)).trans (by norm_num)
  have h3 : |A.rnd d * p| ≤ |d * p| + |A.rnd d * p - d * p| := by
    have := abs_add_le (d * p) (A.rnd d * p - d * p)
    rwa [add_sub_cancel] at this
  have h4 : |A.rnd d * p| ≤ 2 * |d * p| + 1 / 2 ^ 575 := by
    have : |d * p| / 2 ^ 53 ≤ |d * p| := div_le_self (abs_nonneg _) (by norm_num)
    linarith
  have h5 : |A.rnd d * p| ≤ 2 ^ 1023 := by
    refine h4.trans ?_
    have e1 : (2 : ℝ) * 2 ^ 1001 + 1 ≤ 2 ^ 1023 := by
      have e2 : (1 : ℝ) ≤ 2 ^ 1001 := one_le_pow₀ (by norm_num)
      have e3 : (2 : ℝ) ^ 1023 = 2 ^ 1001 * 2 ^ 22 := by rw [← pow_add]
      rw [e3]
      exact big_aux e2
    generalize (2 : ℝ) ^ 1023 = C at *
    generalize (2 : ℝ) ^ 1001 = B at *
    linarith
  have h6 := A.err (A.rnd d * p) h5
  have h7 : |A.rnd (A.rnd d * p) - d * p| ≤ |A.rnd (A.rnd d * p) - A.rnd d * p| + |A.rnd d * p - d * p| := by
    have := abs_add_le (A.rnd (A.rnd d * p) - A.rnd d * p) (A.rnd d * p - d * p)
    rwa [sub_add_sub_cancel] at this
  have h8 : |A.rnd d * p| / 2 ^ 53 ≤ (2 * |d * p| + 1 / 2 ^ 575) / 2 ^ 53 := div_le_div_of_nonneg_right h4 (by positivity)
  have s1 : (1 : ℝ) / 2 ^ 1075 ≤ 1 / 2 ^ 575 := inv_pow_le (by norm_num)
  have s2 : (1 : ℝ) / 2 ^ 575 / 2 ^ 53 ≤ 1 / 2 ^ 575 := div_le_self (by positivity) (by norm_num)
  have s3 : (3 : ℝ) * (1 / 2 ^ 575) ≤ 1 / 2 ^ 500 := by
    have : (1 : ℝ) / 2 ^ 500 = 1 / 2 ^ 575 * 2 ^ 75 := by
      rw [show (575 : ℕ) = 500 + 75 by norm_num, pow_add]
      field_simp
    rw [this]
    have : (0 : ℝ) < 1 / 2 ^ 575 := by positivity
    generalize (1 : ℝ) / 2 ^ 575 = t at *
    norm_num
    linarith
  have e : (2 * |d * p| + 1 / 2 ^ 575) / 2 ^ 53 = 2 * |d * p| / 2 ^ 53 + 1 / 2 ^ 575 / 2 ^ 53 := by ring
  rw [e] at h8
  have e2 : 3 / 2 ^ 53 * |d * p| = 2 * |d * p| / 2 ^ 53 + |d * p| / 2 ^ 53 := by ring
  rw [e2]
  generalize (1 : ℝ) / 2 ^ 575 / 2 ^ 53 = q1 at *
  generalize (1 : ℝ) / 2 ^ 575 = q2 at *
  generalize (1 : ℝ) / 2 ^ 1075 = q3 at *
  generalize (1 : ℝ) / 2 ^ 500 = q4 at *
  linarith

/-! ## The RBF kernel -/

private lemma sq_aux {g D q U η : ℝ} (hU : 0 ≤ U) (hU' : U ≤ 1 / 16) (h1 : |D - g| ≤ U * |g|)
    (h2 : |q - D * D| ≤ U * (D * D) + η) : |q - g * g| ≤ 5 * U * (g * g) + η := by
  have hg : |g| * |g| = g * g := abs_mul_abs_self g
  have h3 : |D + g| ≤ (2 + U) * |g| := by
    have := abs_add_le (D - g) (2 * g)
    have e : D - g + 2 * g = D + g := by ring
    rw [e, abs_mul, abs_of_pos (by norm_num : (0 : ℝ) < 2)] at this
    linarith
  have h4 : |D * D - g * g| ≤ 3 * U * (g * g) := by
    have e : D * D - g * g = (D - g) * (D + g) := by ring
    rw [e, abs_mul, ← hg]
    calc |D - g| * |D + g| ≤ U * |g| * ((2 + U) * |g|) := mul_le_mul h1 h3 (abs_nonneg _) (by positivity)
      _ = U * (2 + U) * (|g| * |g|) := by ring
      _ ≤ 3 * U * (|g| * |g|) := mul_le_mul_of_nonneg_right (by nlinarith) (mul_self_nonneg _)
  have h5 := abs_add_le (q - D * D) (D * D - g * g)
  rw [sub_add_sub_cancel] at h5
  have h6 : D * D ≤ 2 * (g * g) := by
    have := (abs_le.1 h4).2
    nlinarith [mul_self_nonneg g]
  have h7 : U * (D * D) ≤ U * (2 * (g * g)) := mul_le_mul_of_nonneg_left h6 hU
  linarith

private lemma U_small : (1 : ℝ) / 2 ^ 53 ≤ 1 / 16 := by norm_num

lemma FloatArith.sub_err (A : FloatArith) {x y : ℝ} (hx : A.rnd x = x) (hy : A.rnd y = y) (hb : |x - y| ≤ 2 ^ 1023) :
    |A.rnd (x - y) - (x - y)| ≤ 1 / 2 ^ 53 * |x - y| := by
  have h := A.err_add x (-y) hx (by rw [A.neg, hy]) (by rwa [← sub_eq_add_neg])
  rw [← sub_eq_add_neg] at h
  rw [one_div, mul_comm, ← div_eq_mul_inv]
  exact h

/-- The square of a rounded difference. -/
lemma sq_close (A : FloatArith) {x y : ℝ} (hx : A.rnd x = x) (hy : A.rnd y = y) (hbx : |x| ≤ 2 ^ 200) (hby : |y| ≤ 2 ^ 200) :
    |A.rnd (A.rnd (x - y) * A.rnd (x - y)) - (x - y) * (x - y)| ≤ 5 * (1 / 2 ^ 53) * ((x - y) * (x - y)) + 1 / 2 ^ 1075 ∧
    (x - y) * (x - y) ≤ 2 ^ 402 := by
  have hg : |x - y| ≤ 2 ^ 201 := by
    have e : (2 : ℝ) ^ 201 = 2 ^ 200 + 2 ^ 200 := by rw [← mul_two, ← pow_succ]
    rw [e]
    exact (abs_sub _ _).trans (add_le_add hbx hby)
  have hsq : (x - y) * (x - y) ≤ 2 ^ 402 := by
    rw [← abs_mul_abs_self]
    calc |x - y| * |x - y| ≤ 2 ^ 201 * 2 ^ 201 := mul_le_mul hg hg (abs_nonneg _) (by positivity)
      _ = 2 ^ 402 := by rw [← pow_add]
  refine ⟨?_, hsq⟩
  have h1 := A.sub_err hx hy (hg.trans (two_pow_le (by norm_num)))
  have hD : |A.rnd (x - y)| ≤ 2 ^ 202 := by
    have h2 := abs_add_le (A.rnd (x - y) - (x - y)) (x - y)
    rw [sub_add_cancel] at h2
    have e : (2 : ℝ) ^ 202 = 2 ^ 201 * 2 := by rw [← pow_succ]
    have h3 : 1 / 2 ^ 53 * |x - y| ≤ |x - y| := mul_le_of_le_one_left (abs_nonneg _) (by norm_num)
    rw [e]
    generalize (2 : ℝ) ^ 201 = B at *
    linarith
  have hDD : |A.rnd (x - y) * A.rnd (x - y)| ≤ 2 ^ 1023 := by
    rw [abs_mul]
    calc |A.rnd (x - y)| * |A.rnd (x - y)| ≤ 2 ^ 202 * 2 ^ 202 := mul_le_mul hD hD (abs_nonneg _) (by positivity)
      _ = 2 ^ 404 := by rw [← pow_add]
      _ ≤ _ := two_pow_le (by norm_num)
  have h2 := A.err _ hDD
  rw [abs_of_nonneg (mul_self_nonneg (A.rnd (x - y))), div_eq_mul_one_div, mul_comm (A.rnd (x - y) * A.rnd (x - y))] at h2
  exact sq_aux (by positivity) U_small h1 h2

private lemma top_aux {top Q T U η d : ℝ} (hd : 0 ≤ d) (hU : 0 ≤ U) (hdU : d * U ≤ 1 / 16) (hη : 0 ≤ η) (hT : 0 ≤ T)
    (h1 : |Q - T| ≤ 5 * U * T + d * η) (h2 : |top - Q| ≤ 2 * d * U * Q) :
    |top - T| ≤ (2 * d + 6) * U * T + 2 * (d * η) := by
  have h3 := abs_add_le (top - Q) (Q - T)
  rw [sub_add_sub_cancel] at h3
  have h4 : Q ≤ T + 5 * U * T + d * η := by linarith [(abs_le.1 h1).2]
  have h5 : 2 * d * U * Q ≤ 2 * d * U * (T + 5 * U * T + d * η) := mul_le_mul_of_nonneg_left h4 (by positivity)
  have h6 : 2 * d * U * (5 * U * T) ≤ U * T := by
    have : 10 * (d * U) * (U * T) ≤ 1 * (U * T) := mul_le_mul_of_nonneg_right (by linarith) (by positivity)
    linarith
  have h7 : 2 * d * U * (d * η) ≤ d * η := by
    have : 2 * (d * U) * (d * η) ≤ 1 * (d * η) := mul_le_mul_of_nonneg_right (by linarith) (by positivity)
    linarith
  linarith

/-- `np.sum(diff*diff)` with rounding. -/
lemma top_close (A : FloatArith) (S : NpSum A) {d : Nat} (hd : d ≤ 2 ^ 20) (x y : Fin d → ℝ)
    (hx : ∀ i, A.rnd (x i) = x i ∧ |x i| ≤ 2 ^ 200) (hy : ∀ i, A.rnd (y i) = y i ∧ |y i| ≤ 2 ^ 200) :
    |S.sum (List.ofFn fun i => A.rnd (A.rnd (x i - y i) * A.rnd (x i - y i))) - ∑ i, (x i - y i) * (x i - y i)| ≤
      (2 * d + 6) * (1 / 2 ^ 53) * (∑ i, (x i - y i) * (x i - y i)) + 2 * (d * (1 / 2 ^ 1075)) ∧
    ∑ i, (x i - y i) * (x i - y i) ≤ 2 ^ 422 := by
  have hdr : (d : ℝ) ≤ 2 ^ 20 := by exact_mod_cast hd
  have hT : 0 ≤ ∑ i, (x i - y i) * (x i - y i) := Finset.sum_nonneg fun i _ => mul_self_nonneg _
  have hTle : ∑ i, (x i - y i) * (x i - y i) ≤ 2 ^ 422 := by
    have h1 := Finset.sum_le_card_nsmul Finset.univ (fun i => (x i - y i) * (x i - y i)) (2 ^ 402) fun i _ =>
      (sq_close A (hx i).1 (hy i).1 (hx i).2 (hy i).2).2
    rw [Finset.card_univ, Fintype.card_fin, nsmul_eq_mul] at h1
    refine h1.trans ?_
    calc (d : ℝ) * 2 ^ 402 ≤ 2 ^ 20 * 2 ^ 402 := mul_le_mul_of_nonneg_right hdr (by positivity)
      _ = 2 ^ 422 := by rw [← pow_add]
  have hQ : |∑ i, A.rnd (A.rnd (x i - y i) * A.rnd (x i - y i)) - ∑ i, (x i - y i) * (x i - y i)| ≤
      5 * (1 / 2 ^ 53) * (∑ i, (x i - y i) * (x i - y i)) + d * (1 / 2 ^ 1075) := by
    rw [← Finset.sum_sub_distrib]
    refine (Finset.abs_sum_le_sum_abs _ _).trans ?_
    refine (Finset.sum_le_sum fun i _ => (sq_close A (hx i).1 (hy i).1 (hx i).2 (hy i).2).1).trans (le_of_eq ?_)
    rw [Finset.sum_add_distrib, ← Finset.mul_sum, Finset.sum_const, Finset.card_univ, Fintype.card_fin, nsmul_eq_mul]
  refine ⟨?_, hTle⟩
  have hd0 : (0 : ℝ) ≤ d := by positivity
  have hη1 : (d : ℝ) * (1 / 2 ^ 1075) ≤ 1 := by
    calc (d : ℝ) * (1 / 2 ^ 1075) ≤ 2 ^ 20 * (1 / 2 ^ 1075) := mul_le_mul_of_nonneg_right hdr (by positivity)
      _ ≤ 2 ^ 20 * (1 / 2 ^ 20) := mul_le_mul_of_nonneg_left (inv_pow_le (by norm_num)) (by positivity)
      _ = 1 := by norm_num
  have hclose := (S.isSum (List.ofFn fun i => A.rnd (A.rnd (x i - y i) * A.rnd (x i - y i)))).close (by
      intro v hv
      rw [List.mem_ofFn] at hv
      obtain ⟨i, rfl⟩ := hv
      exact ⟨A.nonneg (mul_self_nonneg _), A.idem _⟩) (by
      rw [List.length_ofFn]
      exact hd.trans (by norm_num)) (by
      rw [List.sum_ofFn]
      have h1 := (abs_le.1 hQ).2
      have h2 : ∑ i, A.rnd (A.rnd (x i - y i) * A.rnd (x i - y i)) ≤ 2 * (∑ i, (x i - y i) * (x i - y i)) + 1 := by
        norm_num at h1 hη1 ⊢
        linarith
      refine h2.trans ?_
      have e : (2 : ℝ) ^ 1000 = 2 ^ 422 * 2 ^ 578 := by rw [← pow_add]
      have e2 : (4 : ℝ) ≤ 2 ^ 578 := by
        calc (4 : ℝ) = 2 ^ 2 := by norm_num
          _ ≤ _ := two_pow_le (by norm_num)
      have e3 : (1 : ℝ) ≤ 2 ^ 422 := one_le_pow₀ (by norm_num)
      rw [e]
      clear e
      generalize (2 : ℝ) ^ 422 = B at *
      generalize (2 : ℝ) ^ 578 = C at *
      have h4 : B * 4 ≤ B * C := mul_le_mul_of_nonneg_left e2 (by linarith)
      generalize B * C = G at *
      clear h1 hη1 hQ
      linarith)
  rw [List.length_ofFn, List.sum_ofFn] at hclose
  refine top_aux hd0 (by positivity) ?_ (by positivity) hT hQ ?_
  · calc (d : ℝ) * (1 / 2 ^ 53) ≤ 2 ^ 20 * (1 / 2 ^ 53) := mul_le_mul_of_nonneg_right hdr (by positivity)
      _ ≤ 1 / 16 := by norm_num
  · refine hclose.trans (le_of_eq ?_)
    ring

private lemma den_aux {l l1 den v : ℝ} (hl : 0 < l) (hv : 0 ≤ v) (hv' : v ≤ 1 / 16) (h1 : |l1 - 2 * l| ≤ v * (2 * l))
    (h2 : |den - l1 * l| ≤ v * (l1 * l)) : |den - 2 * l * l| ≤ 5 / 2 * v * (2 * l * l) := by
  have h3 := abs_add_le (den - l1 * l) (l1 * l - 2 * l * l)
  rw [sub_add_sub_cancel] at h3
  have h4 : |l1 * l - 2 * l * l| ≤ v * (2 * l * l) := by
    have e : l1 * l - 2 * l * l = (l1 - 2 * l) * l := by ring
    rw [e, abs_mul, abs_of_pos hl]
    have := mul_le_mul_of_nonneg_right h1 hl.le
    linarith
  have h5 : l1 * l ≤ (1 + v) * (2 * l * l) := by linarith [(abs_le.1 h4).2]
  have h6 : v * (l1 * l) ≤ v * ((1 + v) * (2 * l * l)) := mul_le_mul_of_nonneg_left h5 hv
  have h7 : v * (v * (2 * l * l)) ≤ 1 / 2 * v * (2 * l * l) := by
    have h8 : v * (2 * l * l) ≤ 1 / 2 * (2 * l * l) := mul_le_mul_of_nonneg_right (by linarith) (by positivity)
    have := mul_le_mul_of_nonneg_left h8 hv
    linarith
  linarith

lemma FloatArith.rel_abs (A : FloatArith) {x : ℝ} (h : 1 / 2 ^ 1022 ≤ x) (hb : x ≤ 2 ^ 1023) :
    |A.rnd x - x| ≤ 1 / 2 ^ 52 * x := by
  obtain ⟨h1, h2⟩ := A.rel h hb
  rw [abs_le]
  constructor
  · rw [sub_mul, one_mul] at h1
    linarith
  · rw [add_mul, one_mul] at h2
    linarith

/-- `2 * l * l` with rounding. -/
lemma den_close (A : FloatArith) {l : ℝ} (hl : 1 / 2 ^ 200 ≤ l) (hl' : l ≤ 2 ^ 200) :
    |A.rnd (A.rnd (2 * l) * l) - 2 * l * l| ≤ 5 * (1 / 2 ^ 53) * (2 * l * l) ∧ 1 / 2 ^ 399 ≤ 2 * l * l := by
  have h0 : 0 < l := lt_of_lt_of_le (by positivity) hl
  have hD : 1 / 2 ^ 399 ≤ 2 * l * l := by
    have h1 : 1 / (2 : ℝ) ^ 200 * (1 / 2 ^ 200) ≤ l * l := mul_le_mul hl hl (by positivity) h0.le
    have e : (1 : ℝ) / 2 ^ 399 = 2 * (1 / 2 ^ 200 * (1 / 2 ^ 200)) := by
      have : (2 : ℝ) ^ 200 * 2 ^ 200 = 2 ^ 399 * 2 := by rw [← pow_add, ← pow_succ]
      rw [one_div_mul_one_div, this]
      field_simp
    rw [e]
    calc 2 * (1 / (2 : ℝ) ^ 200 * (1 / 2 ^ 200)) ≤ 2 * (l * l) := mul_le_mul_of_nonneg_left h1 (by norm_num)
      _ = _ := by ring
  have h2l : 2 * l ≤ 2 ^ 201 := by
    have e : (2 : ℝ) ^ 201 = 2 * 2 ^ 200 := by rw [← pow_succ']
    rw [e]
    exact mul_le_mul_of_nonneg_left hl' (by norm_num)
  have hlo : (1 : ℝ) / 2 ^ 1022 ≤ 2 * l := (inv_pow_le (by norm_num : 200 ≤ 1022)).trans (by linarith)
  have r1 := A.rel_abs hlo (h2l.trans (two_pow_le (by norm_num)))
  obtain ⟨a1, a2⟩ := abs_le.1 r1
  have hb1 : l ≤ A.rnd (2 * l) := by
    norm_num at a1
    linarith
  have hb2 : A.rnd (2 * l) ≤ 4 * l := by
    norm_num at a2
    linarith
  have hp1 : l * l ≤ A.rnd (2 * l) * l := mul_le_mul_of_nonneg_right hb1 h0.le
  have hp2 : A.rnd (2 * l) * l ≤ 4 * l * l := mul_le_mul_of_nonneg_right hb2 h0.le
  have r2 := A.rel_abs (x := A.rnd (2 * l) * l) (by
      refine le_trans ?_ hp1
      calc (1 : ℝ) / 2 ^ 1022 ≤ 1 / 2 ^ 400 := inv_pow_le (by norm_num)
        _ = 1 / 2 ^ 200 * (1 / 2 ^ 200) := by rw [one_div_mul_one_div, ← pow_add]
        _ ≤ l * l := mul_le_mul hl hl (by positivity) h0.le) (by
      refine hp2.trans ?_
      calc 4 * l * l = 4 * (l * l) := by ring
        _ ≤ 4 * (2 ^ 200 * 2 ^ 200) := mul_le_mul_of_nonneg_left (mul_le_mul hl' hl' h0.le (by positivity)) (by norm_num)
        _ = 2 ^ 402 := by
            rw [← pow_add, show (4 : ℝ) = 2 ^ 2 by norm_num, ← pow_add]
        _ ≤ _ := two_pow_le (by norm_num))
  refine ⟨(den_aux h0 (by positivity) (by norm_num) r1 r2).trans (le_of_eq ?_), hD⟩
  ring

lemma quot_close {top den T D U ζ d : ℝ} (hd : 0 ≤ d) (hU : 0 ≤ U) (hU' : U ≤ 1 / 64) (hdU : (2 * d + 6) * U ≤ 1 / 64)
    (hζ : 0 ≤ ζ) (hT : 0 ≤ T) (hD : 0 < D)
    (h1 : |top - T| ≤ (2 * d + 6) * U * T + ζ * D) (h2 : |den - D| ≤ 5 * U * D) :
    |top / den - T / D| ≤ (2 * d + 13) * U * (T / D) + 2 * ζ := by
  obtain ⟨a1, a2⟩ := abs_le.1 h2
  have hden : 0 < den := by nlinarith
  have hr : D / den ≤ 1 + 6 * U := by
    rw [div_le_iff₀ hden]
    have : (1 + 6 * U) * (D - 5 * U * D) ≤ (1 + 6 * U) * den := mul_le_mul_of_nonneg_left (by linarith) (by positivity)
    have h3 : 0 ≤ U * D * (1 - 30 * U) := mul_nonneg (by positivity) (by linarith)
    nlinarith
  have hr0 : 0 ≤ D / den := by positivity
  have e : top / den - T / D = (D / den) * ((top - T) / D + (T / D) * ((D - den) / D)) := by
    field_simp
    ring
  have ha : 0 ≤ T / D := by positivity
  have h3 : |(top - T) / D| ≤ (2 * d + 6) * U * (T / D) + ζ := by
    rw [abs_div, abs_of_pos hD, div_le_iff₀ hD]
    calc _ ≤ _ := h1
      _ = _ := by field_simp
  have h4 : |(T / D) * ((D - den) / D)| ≤ 5 * U * (T / D) := by
    rw [abs_mul, abs_of_nonneg ha, mul_comm]
    refine mul_le_mul_of_nonneg_right ?_ ha
    rw [abs_div, abs_of_pos hD, div_le_iff₀ hD, abs_sub_comm]
    exact h2
  rw [e, abs_mul, abs_of_nonneg hr0]
  have h5 := (abs_add_le ((top - T) / D) ((T / D) * ((D - den) / D))).trans (add_le_add h3 h4)
  refine (mul_le_mul hr h5 (abs_nonneg _) (by positivity)).trans ?_
  generalize T / D = a at *
  have h6 : 6 * U * ((2 * d + 6) * U * a) ≤ U * a := by
    have : 6 * ((2 * d + 6) * U) * (U * a) ≤ 1 * (U * a) := mul_le_mul_of_nonneg_right (by linarith) (by positivity)
    linarith
  have h7 : 6 * U * (5 * U * a) ≤ U * a := by
    have : 30 * U * (U * a) ≤ 1 * (U * a) := mul_le_mul_of_nonneg_right (by linarith) (by positivity)
    linarith
  have h8 : 6 * U * ζ ≤ ζ := by
    have : 6 * U * ζ ≤ 1 * ζ := mul_le_mul_of_nonneg_right (by linarith) hζ
    linarith
  linarith

lemma arg_close {t b a U ε ζ η : ℝ} (hU : 0 ≤ U) (hU' : U ≤ 1) (hε' : ε ≤ 1) (hζ : 0 ≤ ζ) (ha : 0 ≤ a)
    (h1 : |b - a| ≤ ε * a + ζ) (h2 : |t - -b| ≤ U * b + η) : |t - -a| ≤ (ε + 2 * U) * a + (2 * ζ + η) := by
  have h3 := abs_add_le (t - -b) (-b - -a)
  rw [sub_add_sub_cancel, show -b - -a = -(b - a) by ring, abs_neg] at h3
  have hb : b ≤ a + ε * a + ζ := by linarith [(abs_le.1 h1).2]
  have hb2 : b ≤ 2 * a + ζ := by nlinarith
  have h4 : U * b ≤ U * (2 * a + ζ) := mul_le_mul_of_nonneg_left hb2 hU
  have h5 : U * ζ ≤ 1 * ζ := mul_le_mul_of_nonneg_right hU' hζ
  linarith

lemma out_close {σ s e x o U δ : ℝ} (hσ : 0 ≤ σ) (hU : 0 ≤ U) (hU' : U ≤ 1 / 16) (h1 : |s - σ| ≤ 2 * U * σ)
    (he : 0 ≤ e) (he1 : e ≤ 1) (h2 : |e - x| ≤ δ) (h3 : |o - s * e| ≤ U * (s * e) + U / 2 * σ) :
    |o - σ * x| ≤ (δ + 4 * U) * σ := by
  have h4 : |s * e - σ * x| ≤ 2 * U * σ + σ * δ := by
    have e1 : s * e - σ * x = (s - σ) * e + σ * (e - x) := by ring
    rw [e1]
    refine (abs_add_le _ _).trans ?_
    rw [abs_mul, abs_mul, abs_of_nonneg he, abs_of_nonneg hσ]
    refine add_le_add ?_ (mul_le_mul_of_nonneg_left h2 hσ)
    calc |s - σ| * e ≤ |s - σ| * 1 := mul_le_mul_of_nonneg_left he1 (abs_nonneg _)
      _ ≤ _ := by linarith
  have h5 := abs_add_le (o - s * e) (s * e - σ * x)
  rw [sub_add_sub_cancel] at h5
  obtain ⟨a1, a2⟩ := abs_le.1 h1
  have hs0 : 0 ≤ s := by nlinarith
  have h6 : s * e ≤ (1 + 2 * U) * σ := by
    calc s * e ≤ s * 1 := mul_le_mul_of_nonneg_left he1 hs0
      _ ≤ _ := by linarith
  have h7 : U * (s * e) ≤ U * ((1 + 2 * U) * σ) := mul_le_mul_of_nonneg_left h6 hU
  have h8 : U * (2 * U * σ) ≤ U * (1 / 2 * σ) :=
    mul_le_mul_of_nonneg_left (mul_le_mul_of_nonneg_right (by linarith) hσ) hU
  linarith

end Lop
