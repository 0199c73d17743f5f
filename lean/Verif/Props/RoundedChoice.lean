import Verif.Proofs.Rounded
import Mathlib.Analysis.Complex.ExponentialBounds

/-! # C98: choice probabilities with rounding -/

namespace Lop.Props

open Lop

private lemma choice_ok {A : FloatArith} (E : NpExp A) {r : List ℝ} (hr : r ≠ []) (hb : ∀ x ∈ r, |x| ≤ 2 ^ 1022) (p : ℝ) :
    ∃ mx ∈ r, (∀ x ∈ r, x ≤ mx) ∧
      choiceExpF A E r p = .ok (r.map fun x => E.exp (A.rnd (A.rnd (x - mx) * p))) := by
  cases r with
  | nil => exact absurd rfl hr
  | cons a as =>
    obtain ⟨h1, h2, h3⟩ := foldl_max_bounds as a
    refine ⟨as.foldl max a, h3, ?_, ?_⟩
    · intro x hx
      rcases List.mem_cons.1 hx with rfl | hx
      · exact h1
      · exact h2 x hx
    · unfold choiceExpF
      simp only
      rw [if_neg]
      rintro ⟨x, hx, h⟩
      have e1 := hb x hx
      have e2 := hb _ h3
      have e3 : |x - as.foldl max a| ≤ |x| + |as.foldl max a| := abs_sub _ _
      have e4 : (2 : ℝ) ^ 1023 = 2 ^ 1022 + 2 ^ 1022 := by
        rw [← mul_two, ← pow_succ]
      rw [e4] at h
      generalize (2 : ℝ) ^ 1022 = B at *
      linarith

private lemma exps_range {A : FloatArith} (E : NpExp A) {r : List ℝ} {p mx : ℝ} (hp : 0 ≤ p) (hm : ∀ x ∈ r, x ≤ mx) :
    ∀ v ∈ r.map (fun x => E.exp (A.rnd (A.rnd (x - mx) * p))), 0 ≤ v ∧ v ≤ 1 ∧ A.rnd v = v := by
  intro v hv
  obtain ⟨x, hx, rfl⟩ := List.mem_map.1 hv
  refine ⟨E.nonneg _, ?_, E.repr _⟩
  rw [← E.zero]
  exact E.mono (A.nonpos (mul_nonpos_of_nonpos_of_nonneg (A.nonpos (by linarith [hm x hx])) hp))

private lemma exp_best {A : FloatArith} (E : NpExp A) (p mx : ℝ) : E.exp (A.rnd (A.rnd (mx - mx) * p)) = 1 := by
  rw [sub_self, A.zero, zero_mul, A.zero, E.zero]

private lemma one_mem {A : FloatArith} (E : NpExp A) {r : List ℝ} {p mx : ℝ} (hm : mx ∈ r) :
    (1 : ℝ) ∈ r.map (fun x => E.exp (A.rnd (A.rnd (x - mx) * p))) :=
  List.mem_map.2 ⟨mx, hm, exp_best E p mx⟩

private lemma sum_ge_one {A : FloatArith} (S : NpSum A) (E : NpExp A) {r : List ℝ} {p mx : ℝ} (hp : 0 ≤ p)
    (hm : ∀ x ∈ r, x ≤ mx) (hmem : mx ∈ r) :
    1 ≤ S.sum (r.map (fun x => E.exp (A.rnd (A.rnd (x - mx) * p)))) ∧
    ∀ v ∈ r.map (fun x => E.exp (A.rnd (A.rnd (x - mx) * p))),
      v ≤ S.sum (r.map (fun x => E.exp (A.rnd (A.rnd (x - mx) * p)))) := by
  have h := ((S.isSum (r.map (fun x => E.exp (A.rnd (A.rnd (x - mx) * p))))).ge fun v hv =>
    ⟨(exps_range E hp hm v hv).1, (exps_range E hp hm v hv).2.2⟩).2
  exact ⟨h 1 (one_mem E hmem), h⟩

/-- With rounding, whatever the order of the summation: `p_human_choice` returns one number per reward, all between 0 and
1, and a smaller reward never gets a larger probability. -/
theorem C98_probabilities (A : FloatArith) (S : NpSum A) (E : NpExp A) (r : List ℝ) (p : ℝ) (hr : r ≠ [])
    (hb : ∀ x ∈ r, |x| ≤ 2 ^ 1022) (hp : 0 ≤ p) :
    ∃ q : List ℝ, humanChoiceF A S E r p = .ok q ∧ q.length = r.length ∧ (∀ v ∈ q, 0 ≤ v ∧ v ≤ 1) ∧
      ∀ (i j : Nat) (a b u v : ℝ), r[i]? = some a → r[j]? = some b → q[i]? = some u → q[j]? = some v → a ≤ b → u ≤ v := by
  obtain ⟨mx, hmem, hm, he⟩ := choice_ok E hr hb p
  obtain ⟨h1, hS⟩ := sum_ge_one S E hp hm hmem
  have hsp := lt_of_lt_of_le one_pos h1
  unfold humanChoiceF
  rw [he]
  refine ⟨_, rfl, by simp, ?_, ?_⟩
  · intro v hv
    obtain ⟨e, he, rfl⟩ := List.mem_map.1 hv
    exact ⟨A.nonneg (div_nonneg (exps_range E hp hm e he).1 hsp.le),
      A.le_one (by rw [div_le_one hsp]; exact hS e he)⟩
  · intro i j a b u v hi hj hu hv hab
    simp only [List.getElem?_map, hi, hj, Option.map_some, Option.some.injEq] at hu hv
    rw [← hu, ← hv]
    refine A.mono (div_le_div_of_nonneg_right (E.mono (A.mono ?_)) hsp.le)
    exact mul_le_mul_of_nonneg_right (A.mono (by linarith)) hp

/-- With rounding the probability of a best option, of at most `2^24`, is at least half the uniform one. -/
theorem C98_best (A : FloatArith) (S : NpSum A) (E : NpExp A) (r : List ℝ) (p : ℝ)
    (hb : ∀ x ∈ r, |x| ≤ 2 ^ 1022) (hp : 0 ≤ p) (hn : r.length ≤ 2 ^ 24) :
    ∀ q, humanChoiceF A S E r p = .ok q → ∀ (i : Nat) (a u : ℝ), r[i]? = some a → q[i]? = some u → (∀ x ∈ r, x ≤ a) →
      1 / (2 * r.length) ≤ u := by
  intro q hq i a u hi hu ha
  have hr : r ≠ [] := by rintro rfl; simp at hi
  obtain ⟨mx, hmem, hm, he⟩ := choice_ok E hr hb p
  obtain ⟨h1, hS⟩ := sum_ge_one S E hp hm hmem
  have hsp := lt_of_lt_of_le one_pos h1
  have hamx : a = mx := le_antisymm (hm a (List.mem_of_getElem? hi)) (ha mx hmem)
  unfold humanChoiceF at hq
  rw [he] at hq
  simp only [Except.map, Except.ok.injEq] at hq
  rw [← hq] at hu
  simp only [List.getElem?_map, hi, Option.map_some, Option.some.injEq] at hu
  rw [hamx, exp_best] at hu
  have hrat := (S.isSum (r.map (fun x => E.exp (A.rnd (A.rnd (x - mx) * p))))).ratio (exps_range E hp hm)
    (by simpa using hn) h1
  have hsum : (r.map (fun x => E.exp (A.rnd (A.rnd (x - mx) * p)))).sum ≤ r.length := by
    have := List.sum_le_card_nsmul _ 1 fun v hv => (exps_range E hp hm v hv).2.1
    simpa using this
  generalize S.sum (r.map (fun x => E.exp (A.rnd (A.rnd (x - mx) * p)))) = s at *
  generalize (r.map (fun x => E.exp (A.rnd (A.rnd (x - mx) * p)))).sum = t at *
  have hlen : (1 : ℝ) ≤ r.length := by
    have : 1 ≤ r.length := List.length_pos_iff.2 hr
    exact_mod_cast this
  have hlen2 : (r.length : ℝ) ≤ 2 ^ 24 := by exact_mod_cast hn
  have hs : s * (1 - 1 / 2 ^ 28) ≤ r.length := by
    have := (abs_le.1 hrat).1
    have : 1 - 1 / 2 ^ 28 ≤ t / s := by linarith
    rw [le_div_iff₀ hsp] at this
    linarith
  have hq0 : 0 ≤ 1 / s := by positivity
  have hq1 : 1 / s ≤ 1 := by rw [div_le_one hsp]; exact h1
  have herr := A.err (1 / s) (by
    rw [abs_of_nonneg hq0]
    exact hq1.trans (one_le_pow₀ (by norm_num)))
  rw [abs_of_nonneg hq0] at herr
  have hlow := (abs_le.1 herr).1
  rw [hu] at hlow
  have hinv : (1 - 1 / 2 ^ 28) / r.length ≤ 1 / s := by
    rw [div_le_div_iff₀ (by linarith) hsp]
    linarith
  have hsmall : (1 : ℝ) / 2 ^ 1075 ≤ (1 / 2 ^ 28) * (1 / r.length) := by
    have e1 : (1 : ℝ) / 2 ^ 24 ≤ 1 / r.length := one_div_le_one_div_of_le (by linarith) hlen2
    have e2 : (1 / 2 ^ 28 : ℝ) * (1 / 2 ^ 24) = 1 / 2 ^ 52 := by norm_num
    have e3 : (1 : ℝ) / 2 ^ 1075 ≤ 1 / 2 ^ 52 :=
      one_div_le_one_div_of_le (by positivity) (pow_le_pow_right₀ (by norm_num) (by norm_num))
    calc (1 : ℝ) / 2 ^ 1075 ≤ (1 / 2 ^ 28) * (1 / 2 ^ 24) := by rw [e2]; exact e3
      _ ≤ _ := mul_le_mul_of_nonneg_left e1 (by norm_num)
  have hL : 0 < 1 / (r.length : ℝ) := by positivity
  have e : 1 / (2 * (r.length : ℝ)) = 1 / 2 * (1 / r.length) := by field_simp
  rw [e]
  have e' : (1 - 1 / 2 ^ 28) / (r.length : ℝ) = (1 - 1 / 2 ^ 28) * (1 / r.length) := by ring
  rw [e'] at hinv
  generalize 1 / (r.length : ℝ) = L at *
  nlinarith

/-- With rounding the exact sum of the probabilities of at most `2^24` options differs from 1 by at most `2^-27`. -/
theorem C98_sum (A : FloatArith) (S : NpSum A) (E : NpExp A) (r : List ℝ) (p : ℝ)
    (hb : ∀ x ∈ r, |x| ≤ 2 ^ 1022) (hp : 0 ≤ p) (hn : r.length ≤ 2 ^ 24) :
    ∀ q, humanChoiceF A S E r p = .ok q → |q.sum - 1| ≤ 1 / 2 ^ 27 := by
  intro q hq
  have hr : r ≠ [] := by
    rintro rfl
    simp [humanChoiceF, choiceExpF, Except.map] at hq
  obtain ⟨mx, hmem, hm, he⟩ := choice_ok E hr hb p
  obtain ⟨h1, hS⟩ := sum_ge_one S E hp hm hmem
  unfold humanChoiceF at hq
  rw [he] at hq
  simp only [Except.map, Except.ok.injEq] at hq
  have hrat := (S.isSum (r.map (fun x => E.exp (A.rnd (A.rnd (x - mx) * p))))).ratio (exps_range E hp hm)
    (by simpa using hn) h1
  have hquot := sum_quot (A := A) h1 fun v hv => ⟨(exps_range E hp hm v hv).1, hS v hv⟩
  rw [hq] at hquot
  have hlen : ((r.map (fun x => E.exp (A.rnd (A.rnd (x - mx) * p)))).length : ℝ) ≤ 2 ^ 24 := by
    rw [List.length_map]
    exact_mod_cast hn
  generalize S.sum (r.map (fun x => E.exp (A.rnd (A.rnd (x - mx) * p)))) = s at *
  generalize (r.map (fun x => E.exp (A.rnd (A.rnd (x - mx) * p)))).sum = t at *
  generalize ((r.map (fun x => E.exp (A.rnd (A.rnd (x - mx) * p)))).length : ℝ) = n at *
  have hle := (abs_le.1 hrat).2
  have ht : t / s ≤ 2 := by
    have : (1 : ℝ) / 2 ^ 28 ≤ 1 := by norm_num
    linarith
  have hsmall : n * (1 / 2 ^ 1075) ≤ 1 / 2 ^ 40 := by
    have e3 : (1 : ℝ) / 2 ^ 1075 ≤ 1 / 2 ^ 64 :=
      one_div_le_one_div_of_le (by positivity) (pow_le_pow_right₀ (by norm_num) (by norm_num))
    have e4 : n * (1 / 2 ^ 1075) ≤ 2 ^ 24 * (1 / 2 ^ 1075) := mul_le_mul_of_nonneg_right hlen (by positivity)
    have e5 : (2 : ℝ) ^ 24 * (1 / 2 ^ 1075) ≤ 2 ^ 24 * (1 / 2 ^ 64) := mul_le_mul_of_nonneg_left e3 (by norm_num)
    have e6 : (2 : ℝ) ^ 24 * (1 / 2 ^ 64) = 1 / 2 ^ 40 := by norm_num
    linarith
  have hq2 : |q.sum - t / s| ≤ 1 / 2 ^ 39 := by
    refine hquot.trans ?_
    have : t / s / 2 ^ 53 ≤ 2 / 2 ^ 53 := div_le_div_of_nonneg_right ht (by norm_num)
    have e : (2 : ℝ) / 2 ^ 53 + 1 / 2 ^ 40 ≤ 1 / 2 ^ 39 := by norm_num
    linarith
  have e : q.sum - 1 = (q.sum - t / s) + (t / s - 1) := by ring
  rw [e]
  refine (abs_add_le _ _).trans ((add_le_add hq2 hrat).trans ?_)
  norm_num

/-- So the probabilities of `sample_human_choice` pass the test of `np.random.choice`, and a choice is drawn from them, if
the compensated sum is within `2^-27` of the exact one. -/
theorem C98_accepted (A : FloatArith) (S : NpSum A) (E : NpExp A) (kahan : List ℝ → ℝ) (draw : List ℝ → Nat) (r : List ℝ)
    (p : ℝ) (hr : r ≠ []) (hb : ∀ x ∈ r, |x| ≤ 2 ^ 1022) (hp : 0 ≤ p) (hn : r.length ≤ 2 ^ 24)
    (hk : ∀ q : List ℝ, (∀ v ∈ q, 0 ≤ v ∧ v ≤ 1) → |kahan q - q.sum| ≤ 1 / 2 ^ 27) :
    ∃ q : List ℝ, humanChoiceF A S E r p = .ok q ∧ sampleChoiceF A S E kahan draw r p = .ok (draw q) := by
  obtain ⟨q, hq, -, hrange, -⟩ := C98_probabilities A S E r p hr hb hp
  refine ⟨q, hq, ?_⟩
  unfold sampleChoiceF
  rw [hq]
  simp only [npChoiceF]
  rw [if_neg]
  rintro (⟨v, hv, h⟩ | h)
  · linarith [(hrange v hv).1]
  · have h1 := C98_sum A S E r p hb hp hn q hq
    have h2 := hk q hrange
    have e : kahan q - 1 = (kahan q - q.sum) + (q.sum - 1) := by ring
    rw [e] at h
    have := abs_add_le (kahan q - q.sum) (q.sum - 1)
    have e2 : (1 : ℝ) / 2 ^ 27 + 1 / 2 ^ 27 = 1 / 2 ^ 26 := by norm_num
    linarith

/-- Without options both functions raise `ValueError`. -/
theorem C98_empty (A : FloatArith) (S : NpSum A) (E : NpExp A) (kahan : List ℝ → ℝ) (draw : List ℝ → Nat) (p : ℝ) :
    humanChoiceF A S E [] p = .error .valueError ∧ sampleChoiceF A S E kahan draw [] p = .error .valueError :=
  ⟨rfl, rfl⟩

private lemma exp_underflow : round64 (Real.exp (-1000)) = 0 := by
  refine round64_underflow (Real.exp_pos _).le ?_
  rw [Real.exp_neg, zpow_neg]
  refine inv_anti₀ (by positivity) ?_
  have h2 : (2.7 : ℝ) ≤ Real.exp 1 := by linarith [Real.exp_one_gt_d9]
  have h3 : Real.exp 1000 = Real.exp 1 ^ 1000 := by
    rw [← Real.exp_nat_mul]
    norm_num
  rw [h3]
  calc (2 : ℝ) ^ (1075 : ℤ) = (2 : ℝ) ^ (1075 : ℕ) := by rw [← zpow_natCast]; rfl
    _ ≤ (2 : ℝ) ^ 1080 := pow_le_pow_right₀ (by norm_num) (by norm_num)
    _ = ((2 : ℝ) ^ 27) ^ 40 := by rw [← pow_mul]
    _ ≤ ((2.7 : ℝ) ^ 25) ^ 40 := pow_le_pow_left₀ (by norm_num) (by norm_num) _
    _ = (2.7 : ℝ) ^ 1000 := by rw [← pow_mul]
    _ ≤ _ := pow_le_pow_left₀ (by norm_num) h2 _

private lemma sum_one_zero {A : FloatArith} (S : NpSum A) : S.sum [1, 0] = 1 := by
  have h := S.isSum [1, 0]
  have hl : ∀ x ∈ [(1 : ℝ), 0], 0 ≤ x ∧ A.rnd x = x := by
    intro x hx
    simp only [List.mem_cons, List.not_mem_nil, or_false] at hx
    rcases hx with rfl | rfl
    · exact ⟨zero_le_one, A.one⟩
    · exact ⟨le_rfl, A.zero⟩
  generalize hs : S.sum [1, 0] = s at h
  generalize hl' : [(1 : ℝ), 0] = l at h
  cases h with
  | nil => simp at hl'
  | single x => simp at hl'
  | @node _ l₁ l₂ s₁ s₂ hp n1 n2 h1 h2 =>
    subst hl'
    have hlen := hp.length_eq
    simp only [List.length_append, List.length_cons, List.length_nil] at hlen
    have p1 : 1 ≤ l₁.length := List.length_pos_iff.2 n1
    have p2 : 1 ≤ l₂.length := List.length_pos_iff.2 n2
    obtain ⟨a, rfl⟩ := List.length_eq_one_iff.1 (show l₁.length = 1 by omega)
    obtain ⟨b, rfl⟩ := List.length_eq_one_iff.1 (show l₂.length = 1 by omega)
    have e1 : s₁ = a := by
      generalize hla : [a] = la at h1
      cases h1 with
      | nil => simp at hla
      | single x => simpa using hla.symm
      | node hp' n1' n2' _ _ =>
        subst hla
        have := hp'.length_eq
        have := List.length_pos_iff.2 n1'
        have := List.length_pos_iff.2 n2'
        simp at *
        omega
    have e2 : s₂ = b := by
      generalize hla : [b] = la at h2
      cases h2 with
      | nil => simp at hla
      | single x => simpa using hla.symm
      | node hp' n1' n2' _ _ =>
        subst hla
        have := hp'.length_eq
        have := List.length_pos_iff.2 n1'
        have := List.length_pos_iff.2 n2'
        simp at *
        omega
    have hsum := hp.sum_eq
    simp at hsum
    rw [e1, e2, ← hsum, A.one]

/-- In binary64 an option that is worse by 1000 gets the probability 0 (with the exact exponential it is positive). -/
theorem C98_positive_false (S : NpSum binary64) :
    humanChoiceF binary64 S (roundedExp binary64) [1000, 0] 1 = .ok [1, 0] := by
  have hb : ∀ x ∈ [(1000 : ℝ), 0], |x| ≤ 2 ^ 1022 := by
    have h4 : (1024 : ℝ) ≤ 2 ^ 1022 := by
      calc (1024 : ℝ) = 2 ^ 10 := by norm_num
        _ ≤ _ := pow_le_pow_right₀ (by norm_num) (by norm_num)
    intro x hx
    simp only [List.mem_cons, List.not_mem_nil, or_false] at hx
    rcases hx with rfl | rfl <;> refine le_trans ?_ h4 <;> norm_num
  obtain ⟨mx, hmem, hm, he⟩ := choice_ok (roundedExp binary64) (r := [1000, 0]) (by simp) hb 1
  have hmx : mx = 1000 := by
    simp only [List.mem_cons, List.not_mem_nil, or_false] at hmem
    rcases hmem with h | h
    · exact h
    · have := hm 1000 (by simp)
      linarith
  have h1000 : binary64.rnd (-1000) = -1000 := by
    rw [binary64.neg]
    have := binary64.nat 1000 (by norm_num)
    push_cast at this
    rw [this]
  have hexp : (roundedExp binary64).exp (-1000) = 0 := exp_underflow
  unfold humanChoiceF
  rw [he, hmx]
  simp only [List.map_cons, List.map_nil, exp_best, Except.map]
  rw [show (0 : ℝ) - 1000 = -1000 by norm_num, h1000, mul_one, h1000, hexp, sum_one_zero, div_one, div_one, binary64.one,
    binary64.zero]

example : (∀ x ∈ [(1 : ℝ), 2, 3], |x| ≤ 2 ^ 1022) ∧ [(1 : ℝ), 2, 3].length ≤ 2 ^ 24 := by
  refine ⟨fun x hx => ?_, by norm_num⟩
  have h4 : (4 : ℝ) ≤ 2 ^ 1022 := by
    calc (4 : ℝ) = 2 ^ 2 := by norm_num
      _ ≤ _ := pow_le_pow_right₀ (by norm_num) (by norm_num)
  simp only [List.mem_cons, List.not_mem_nil, or_false] at hx
  rcases hx with rfl | rfl | rfl <;> refine le_trans ?_ h4 <;> norm_num

end Lop.Props
