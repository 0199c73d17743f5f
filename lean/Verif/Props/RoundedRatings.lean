import Verif.Proofs.Rounded
import Mathlib.Analysis.Complex.ExponentialBounds

/-! # C100: ratings with rounding -/

namespace Lop.Props

open Lop

/-- With rounding the sigmoid lies between 0 and 1, and it does not decrease if `k` is nonnegative. -/
theorem C100_sigmoid (A : FloatArith) (E : NpExp A) (k b : ℝ) :
    (∀ x, 0 ≤ sigmoidF A E x k b ∧ sigmoidF A E x k b ≤ 1) ∧
    (0 ≤ k → ∀ x y, x ≤ y → sigmoidF A E x k b ≤ sigmoidF A E y k b) := by
  have hd : ∀ t, 1 ≤ A.rnd (1 + E.exp t) := fun t => A.one_le (by linarith [E.nonneg t])
  constructor
  · intro x
    unfold sigmoidF
    have h := hd (-A.rnd (A.rnd (k * x) + b))
    have hp := lt_of_lt_of_le one_pos h
    exact ⟨A.nonneg (div_nonneg zero_le_one hp.le), A.le_one (by rw [div_le_one hp]; exact h)⟩
  · intro hk x y hxy
    unfold sigmoidF
    refine A.mono (one_div_le_one_div_of_le (lt_of_lt_of_le one_pos (hd _)) (A.mono ?_))
    have h1 : A.rnd (A.rnd (k * x) + b) ≤ A.rnd (A.rnd (k * y) + b) := by
      refine A.mono ?_
      have := A.mono (mul_le_mul_of_nonneg_left hxy hk)
      linarith
    have := E.mono (show -A.rnd (A.rnd (k * y) + b) ≤ -A.rnd (A.rnd (k * x) + b) by linarith)
    linarith

/-- In binary64 the sigmoid of 40 is exactly 1 (without rounding it is smaller than 1). -/
theorem C100_sigmoid_open_false : sigmoidF binary64 (roundedExp binary64) 40 1 0 = 1 := by
  have h40 : binary64.rnd 40 = 40 := by
    have := binary64.nat 40 (by norm_num)
    push_cast at this
    exact this
  have he : (roundedExp binary64).exp (-40) ≤ 2 ^ (-53 : ℤ) := by
    have h1 : Real.exp (-40) ≤ 2 ^ (-53 : ℤ) := by
      rw [Real.exp_neg, zpow_neg]
      refine inv_anti₀ (by positivity) ?_
      have h2 : (2.7 : ℝ) ≤ Real.exp 1 := by linarith [Real.exp_one_gt_d9]
      have h3 : Real.exp 40 = Real.exp 1 ^ 40 := by
        rw [← Real.exp_nat_mul]
        norm_num
      rw [h3]
      calc (2 : ℝ) ^ (53 : ℤ) ≤ (2.7 : ℝ) ^ 40 := by norm_num
        _ ≤ _ := pow_le_pow_left₀ (by norm_num) h2 _
    have h2 := binary64.mono h1
    have h3 : binary64.rnd (2 ^ (-53 : ℤ)) = 2 ^ (-53 : ℤ) := by
      have := round64_absorb (k := -53) (by norm_num) (by norm_num) (t := 0) le_rfl (by positivity)
      rwa [add_zero] at this
    rw [h3] at h2
    exact h2
  have hs : binary64.rnd (1 + (roundedExp binary64).exp (-40)) = 1 := by
    have := round64_absorb (k := 0) (by norm_num) (by norm_num) ((roundedExp binary64).nonneg (-40))
      (by simpa using he)
    rw [zpow_zero] at this
    exact this
  unfold sigmoidF
  rw [one_mul, h40, add_zero, h40, hs, div_one, binary64.one]

/-! ## `normalize_0_1` -/

private lemma norm_ok {A : FloatArith} (x : List ℝ) (hx : x ≠ []) (eps : ℝ) :
    ∃ mx ∈ x, ∃ mn ∈ x, (∀ v ∈ x, mn ≤ v ∧ v ≤ mx) ∧
      normalize01F A x eps = .ok (x.map fun xi => A.rnd (A.rnd (A.rnd (xi - mn) + eps) *
        A.rnd (1 / A.rnd (A.rnd (mx - mn) + A.rnd (2 * eps))))) := by
  cases x with
  | nil => exact absurd rfl hx
  | cons a as =>
    obtain ⟨h1, h2, h3⟩ := foldl_max_bounds as a
    obtain ⟨g1, g2, g3⟩ := foldl_min_bounds as a
    refine ⟨_, h3, _, g3, ?_, rfl⟩
    intro v hv
    rcases List.mem_cons.1 hv with rfl | hv
    · exact ⟨g1, h1⟩
    · exact ⟨g2 v hv, h2 v hv⟩

/-- `normalize_0_1` of an empty array raises `ValueError`. -/
theorem C100_normalize_empty (A : FloatArith) (eps : ℝ) : normalize01F A [] eps = .error .valueError := rfl

private lemma small_le {n : Nat} (hn : n ≤ 1022) : (1 : ℝ) / 2 ^ 1022 ≤ 1 / 2 ^ n :=
  one_div_le_one_div_of_le (by positivity) (pow_le_pow_right₀ (by norm_num) hn)

private lemma e2_pos {A : FloatArith} {eps : ℝ} (he : 1 / 2 ^ 500 ≤ eps) (he1 : eps ≤ 1) :
    (1 - 1 / 2 ^ 52) * (2 * eps) ≤ A.rnd (2 * eps) ∧ A.rnd (2 * eps) ≤ 4 * eps ∧ eps ≤ A.rnd (2 * eps) ∧ 0 < eps := by
  have h0 : (0 : ℝ) < 1 / 2 ^ 500 := by positivity
  have hp : 0 < eps := lt_of_lt_of_le h0 he
  have h := A.rel (x := 2 * eps) ((small_le (by norm_num)).trans (he.trans (by linarith))) (by
    calc 2 * eps ≤ 2 ^ 1 := by linarith
      _ ≤ 2 ^ 1023 := pow_le_pow_right₀ (by norm_num) (by norm_num))
  refine ⟨h.1, h.2.trans ?_, le_trans ?_ h.1, hp⟩
  · norm_num
    linarith
  · have e : (1 - 1 / 2 ^ 52 : ℝ) * 2 ≥ 1 := by norm_num
    nlinarith

/-- With rounding `normalize_0_1` returns nonnegative numbers in the order of the given ones. -/
theorem C100_normalize_order (A : FloatArith) (x : List ℝ) (eps : ℝ) (hx : x ≠ []) (he : 1 / 2 ^ 500 ≤ eps)
    (he1 : eps ≤ 1) :
    ∃ q : List ℝ, normalize01F A x eps = .ok q ∧ q.length = x.length ∧ (∀ v ∈ q, 0 ≤ v) ∧
      ∀ (i j : Nat) (a b u v : ℝ), x[i]? = some a → x[j]? = some b → q[i]? = some u → q[j]? = some v → a ≤ b → u ≤ v := by
  obtain ⟨mx, hmx, mn, hmn, hb, h⟩ := norm_ok (A := A) x hx eps
  obtain ⟨-, -, hle, hp⟩ := e2_pos (A := A) he he1
  have hD : 0 ≤ A.rnd (mx - mn) := A.nonneg (by linarith [hb mx hmx])
  have hs : 0 ≤ A.rnd (1 / A.rnd (A.rnd (mx - mn) + A.rnd (2 * eps))) :=
    A.nonneg (div_nonneg zero_le_one (A.nonneg (by linarith)))
  refine ⟨_, h, by simp, ?_, ?_⟩
  · intro v hv
    obtain ⟨xi, hxi, rfl⟩ := List.mem_map.1 hv
    have : 0 ≤ A.rnd (xi - mn) := A.nonneg (by linarith [(hb xi hxi).1])
    exact A.nonneg (mul_nonneg (A.nonneg (by linarith)) hs)
  · intro i j a b u v hi hj hu hv hab
    simp only [List.getElem?_map, hi, hj, Option.map_some, Option.some.injEq] at hu hv
    rw [← hu, ← hv]
    refine A.mono (mul_le_mul_of_nonneg_right (A.mono ?_) hs)
    have := A.mono (show a - mn ≤ b - mn by linarith)
    linarith

/-- With rounding `normalize_0_1` returns numbers strictly between 0 and 1 if the spread of the given ones is at most
`2^49` times `eps` (about `5e10` for the default). -/
theorem C100_normalize_open (A : FloatArith) (x : List ℝ) (eps : ℝ) (he : 1 / 2 ^ 500 ≤ eps)
    (he1 : eps ≤ 1) (hspread : ∀ a ∈ x, ∀ b ∈ x, a - b ≤ 2 ^ 49 * eps) :
    ∀ q, normalize01F A x eps = .ok q → ∀ v ∈ q, 0 < v ∧ v < 1 := by
  intro q hq v hv
  have hx : x ≠ [] := by
    rintro rfl
    simp [normalize01F] at hq
  obtain ⟨mx, hmx, mn, hmn, hb, h⟩ := norm_ok (A := A) x hx eps
  obtain ⟨hlo2, hup2, hle, hp⟩ := e2_pos (A := A) he he1
  rw [h] at hq
  simp only [Except.ok.injEq] at hq
  rw [← hq] at hv
  obtain ⟨xi, hxi, rfl⟩ := List.mem_map.1 hv
  have hDle : A.rnd (mx - mn) ≤ (1 + 1 / 2 ^ 52) * (2 ^ 49 * eps) := by
    refine (A.mono (hspread mx hmx mn hmn)).trans (A.rel ?_ ?_).2
    · refine (small_le (by norm_num)).trans (he.trans ?_)
      nlinarith
    · calc 2 ^ 49 * eps ≤ 2 ^ 49 := by nlinarith
        _ ≤ 2 ^ 1023 := pow_le_pow_right₀ (by norm_num) (by norm_num)
  have hdD : A.rnd (xi - mn) ≤ A.rnd (mx - mn) := A.mono (by linarith [(hb xi hxi).2])
  have hd0 : 0 ≤ A.rnd (xi - mn) := A.nonneg (by linarith [(hb xi hxi).1])
  have hD0 : 0 ≤ A.rnd (mx - mn) := hd0.trans hdD
  have hbig : (2 : ℝ) ^ 52 ≤ 2 ^ 1023 := pow_le_pow_right₀ (by norm_num) (by norm_num)
  have hsm : (1 : ℝ) / 2 ^ 1022 ≤ eps := (small_le (by norm_num)).trans he
  have hsm2 : (1 : ℝ) / 2 ^ 1022 ≤ 1 / 2 ^ 60 := small_le (by norm_num)
  have he2u : A.rnd (2 * eps) ≤ 4 := by linarith
  generalize A.rnd (mx - mn) = D at *
  generalize A.rnd (xi - mn) = d at *
  generalize A.rnd (2 * eps) = e2 at *
  have hDu : D ≤ 2 ^ 50 := by nlinarith
  have hDe : D ≤ 2 ^ 50 * eps := by nlinarith
  -- numerator
  obtain ⟨ha1, ha2⟩ := A.rel (x := d + eps) (by linarith) (by
    refine le_trans ?_ hbig
    norm_num at hDu ⊢
    linarith)
  -- denominator
  obtain ⟨hb1, hb2⟩ := A.rel (x := D + e2) (by linarith) (by
    refine le_trans ?_ hbig
    norm_num at hDu ⊢
    linarith)
  generalize A.rnd (d + eps) = a at *
  generalize A.rnd (D + e2) = b at *
  have hbpos : 0 < b := by
    refine lt_of_lt_of_le ?_ hb1
    have : (0 : ℝ) < 1 - 1 / 2 ^ 52 := by norm_num
    have : 0 < D + e2 := by linarith
    positivity
  have hapos : 0 < a := by
    refine lt_of_lt_of_le ?_ ha1
    have : (0 : ℝ) < 1 - 1 / 2 ^ 52 := by norm_num
    have : 0 < d + eps := by linarith
    positivity
  have hbu : b ≤ 2 ^ 52 := by
    refine hb2.trans ?_
    norm_num at hDu ⊢
    linarith
  -- the quotient
  have hbl : eps / 2 ≤ b := by
    refine le_trans ?_ hb1
    norm_num
    linarith
  obtain ⟨hs1, hs2⟩ := A.rel (x := 1 / b) (by
    refine (small_le (n := 52) (by norm_num)).trans ?_
    exact one_div_le_one_div_of_le hbpos hbu) (by
    have h1 : 1 / b ≤ 1 / (1 / 2 ^ 500 / 2) := one_div_le_one_div_of_le (by positivity) (by linarith)
    refine h1.trans ?_
    rw [div_div, ← pow_succ, one_div_one_div]
    exact pow_le_pow_right₀ (by norm_num) (by norm_num))
  generalize A.rnd (1 / b) = s at *
  have hspos : 0 < s := by
    refine lt_of_lt_of_le ?_ hs1
    have : (0 : ℝ) < 1 - 1 / 2 ^ 52 := by norm_num
    positivity
  have hbe : b ≤ 2 ^ 52 * eps := by
    refine hb2.trans ?_
    norm_num at hDe ⊢
    linarith
  have hlow : 1 / 2 ^ 60 ≤ a * s := by
    have h1 : eps / 2 ≤ a := by
      refine le_trans ?_ ha1
      norm_num
      linarith
    have h2 : 1 / b / 2 ≤ s := by
      refine le_trans ?_ hs1
      have : 0 < 1 / b := by positivity
      generalize 1 / b = t at *
      norm_num
      linarith
    have h3 : 1 / (2 ^ 52 * eps) ≤ 1 / b := one_div_le_one_div_of_le hbpos hbe
    have h4 : 1 / (2 ^ 52 * eps) / 2 ≤ s := by linarith
    calc (1 : ℝ) / 2 ^ 60 ≤ 1 / 2 ^ 54 := by norm_num
      _ = eps / 2 * (1 / (2 ^ 52 * eps) / 2) := by field_simp
      _ ≤ a * s := mul_le_mul h1 h4 (by positivity) hapos.le
  have hupp : (1 + 1 / 2 ^ 52) * (a * s) < 1 := by
    have h1 : a ≤ (1 + 1 / 2 ^ 52) * (D + eps) := ha2.trans (mul_le_mul_of_nonneg_left (by linarith) (by norm_num))
    have h2 : (1 + 1 / 2 ^ 52) * (a * s) ≤ (1 + 1 / 2 ^ 52) ^ 3 * (D + eps) / b := by
      calc (1 + 1 / 2 ^ 52) * (a * s)
          ≤ (1 + 1 / 2 ^ 52) * ((1 + 1 / 2 ^ 52) * (D + eps) * ((1 + 1 / 2 ^ 52) * (1 / b))) :=
            mul_le_mul_of_nonneg_left (mul_le_mul h1 hs2 hspos.le (by positivity)) (by norm_num)
        _ = _ := by ring
    refine h2.trans_lt ?_
    rw [div_lt_one hbpos]
    refine lt_of_lt_of_le ?_ hb1
    norm_num at hDle hlo2 ⊢
    linarith
  have hlt1 : a * s < 1 := lt_of_le_of_lt (le_mul_of_one_le_left (by positivity) (by norm_num)) hupp
  refine ⟨A.pos (le_trans ?_ hlow), ?_⟩
  · exact one_div_le_one_div_of_le (by positivity) (pow_le_pow_right₀ (by norm_num) (by norm_num))
  · exact (A.rel (hsm2.trans hlow) (hlt1.le.trans (one_le_pow₀ (by norm_num)))).2.trans_lt hupp

private lemma r_pow60 : binary64.rnd (2 ^ 60) = 2 ^ 60 := by
  have := round64_absorb (k := 60) (by norm_num) (by norm_num) (t := 0) le_rfl (by positivity)
  rw [add_zero] at this
  exact_mod_cast this

private lemma r_pow60_add {t : ℝ} (h0 : 0 ≤ t) (h1 : t ≤ 128) : binary64.rnd (2 ^ 60 + t) = 2 ^ 60 := by
  have := round64_absorb (k := 60) (by norm_num) (by norm_num) h0 (h1.trans (by norm_num))
  exact_mod_cast this

/-- In binary64 `normalize_0_1` of 0 and `2^60` returns exactly 1 for the second, for every `eps` between 0 and 1: the
result does not lie strictly between 0 and 1 as it does without rounding. -/
theorem C100_normalize_open_false (eps : ℝ) (h0 : 0 ≤ eps) (h1 : eps ≤ 1) :
    ∃ q : List ℝ, normalize01F binary64 [0, 2 ^ 60] eps = .ok q ∧ q[1]? = some 1 := by
  obtain ⟨mx, hmx, mn, hmn, hb, h⟩ := norm_ok (A := binary64) [0, 2 ^ 60] (by simp) eps
  refine ⟨_, h, ?_⟩
  have hmx' : mx = 2 ^ 60 := by
    have := (hb (2 ^ 60) (by simp)).2
    simp only [List.mem_cons, List.not_mem_nil, or_false] at hmx
    rcases hmx with rfl | rfl
    · norm_num at this
    · rfl
  have hmn' : mn = 0 := by
    have := (hb 0 (by simp)).1
    simp only [List.mem_cons, List.not_mem_nil, or_false] at hmn
    rcases hmn with rfl | rfl
    · rfl
    · norm_num at this
  have he2 : 0 ≤ binary64.rnd (2 * eps) ∧ binary64.rnd (2 * eps) ≤ 128 := by
    refine ⟨binary64.nonneg (by linarith), ?_⟩
    have h128 : binary64.rnd 128 = 128 := by
      have := binary64.nat 128 (by norm_num)
      push_cast at this
      exact this
    rw [← h128]
    exact binary64.mono (by linarith)
  have hinv : binary64.rnd (1 / 2 ^ 60) = 1 / 2 ^ 60 := by
    have := round64_absorb (k := -60) (by norm_num) (by norm_num) (t := 0) le_rfl (by positivity)
    rw [add_zero, zpow_neg] at this
    rw [one_div]
    exact_mod_cast this
  rw [hmx', hmn']
  simp only [List.map_cons, List.map_nil, List.getElem?_cons_succ, List.getElem?_cons_zero, Option.some.injEq, sub_zero]
  rw [r_pow60, r_pow60_add h0 (by linarith), r_pow60_add he2.1 he2.2, hinv,
    show (2 : ℝ) ^ 60 * (1 / 2 ^ 60) = 1 by norm_num, binary64.one]

example : (1 : ℝ) / 2 ^ 500 ≤ 1 / 2 ^ 13 ∧ ∀ a ∈ [(0 : ℝ), 5, 1000], ∀ b ∈ [(0 : ℝ), 5, 1000], a - b ≤ 2 ^ 49 * (1 / 2 ^ 13) := by
  refine ⟨one_div_le_one_div_of_le (by positivity) (pow_le_pow_right₀ (by norm_num) (by norm_num)), ?_⟩
  intro a ha b hb
  simp only [List.mem_cons, List.not_mem_nil, or_false] at ha hb
  rcases ha with rfl | rfl | rfl <;> rcases hb with rfl | rfl | rfl <;> norm_num

end Lop.Props
