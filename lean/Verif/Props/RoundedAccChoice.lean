import Verif.Proofs.RoundedAcc
import Mathlib.Algebra.BigOperators.Fin

/-! # C98: accuracy of the choice probabilities -/

namespace Lop.Props

open Lop

private lemma sum_close (f g : ℝ → ℝ) (δ : ℝ) (l : List ℝ) (h : ∀ x ∈ l, |f x - g x| ≤ δ) :
    |(l.map f).sum - (l.map g).sum| ≤ l.length * δ := by
  induction l with
  | nil => simp
  | cons a l ih =>
    simp only [List.map_cons, List.sum_cons, List.length_cons]
    have h1 := h a (by simp)
    have h2 := ih fun x hx => h x (by simp [hx])
    have e : f a + (l.map f).sum - (g a + (l.map g).sum) = (f a - g a) + ((l.map f).sum - (l.map g).sum) := by ring
    rw [e]
    refine (abs_add_le _ _).trans ((add_le_add h1 h2).trans (le_of_eq ?_))
    push_cast
    ring

/-- With rounding every probability of `p_human_choice` differs from the softmax of the rewards by at most `n / 2^47`, if
`np.exp` is accurate to `2^-50` on negative numbers. -/
theorem C98_accurate (A : FloatArith) (S : NpSum A) (E : NpExp A) (hE : ∀ x ≤ 0, |E.exp x - Real.exp x| ≤ 1 / 2 ^ 50)
    {n : Nat} (r : Fin n → ℝ) (p : ℝ) (hn : n ≤ 2 ^ 24) (hb : ∀ i, |r i| ≤ 2 ^ 500) (hp : 0 ≤ p) (hp' : p ≤ 2 ^ 500) :
    ∀ q, humanChoiceF A S E (List.ofFn r) p = .ok q → ∀ i : Fin n, ∃ v, q[i.val]? = some v ∧
      |v - Real.exp (r i * p) / ∑ j, Real.exp (r j * p)| ≤ n / 2 ^ 47 := by
  intro q hq i
  have hbl : ∀ x ∈ List.ofFn r, |x| ≤ 2 ^ 500 := by
    intro x hx
    rw [List.mem_ofFn] at hx
    obtain ⟨j, rfl⟩ := hx
    exact hb j
  have hi : (List.ofFn r)[i.val]? = some (r i) := by simp
  have hlen : (List.ofFn r).length = n := by simp
  have hexact : Real.exp (r i * p) / ∑ j, Real.exp (r j * p) =
      Real.exp (r i * p) / ((List.ofFn r).map fun x => Real.exp (x * p)).sum := by
    rw [List.map_ofFn, List.sum_ofFn]
    rfl
  rw [hexact]
  generalize List.ofFn r = l at *
  obtain ⟨mx, hmem, hm, hq⟩ : ∃ mx ∈ l, (∀ x ∈ l, x ≤ mx) ∧
      q = (l.map fun x => E.exp (A.rnd (A.rnd (x - mx) * p))).map fun v => A.rnd (v / S.sum (l.map fun x =>
        E.exp (A.rnd (A.rnd (x - mx) * p)))) := by
    cases l with
    | nil => simp at hi
    | cons a as =>
      obtain ⟨h1, h2, h3⟩ := foldl_max_bounds as a
      refine ⟨as.foldl max a, h3, ?_, ?_⟩
      · intro x hx
        rcases List.mem_cons.1 hx with rfl | hx
        · exact h1
        · exact h2 x hx
      · unfold humanChoiceF choiceExpF at hq
        simp only at hq
        split_ifs at hq
        · simp [Except.map] at hq
        · simpa [Except.map] using hq.symm
  refine ⟨_, by rw [hq, List.getElem?_map, List.getElem?_map, hi]; rfl, ?_⟩
  beta_reduce
  -- the exponentials
  have hδ : ∀ x ∈ l, |E.exp (A.rnd (A.rnd (x - mx) * p)) - Real.exp ((x - mx) * p)| ≤ 1 / 2 ^ 49 := by
    intro x hx
    have hd : x - mx ≤ 0 := by linarith [hm x hx]
    have hd' : |x - mx| ≤ 2 ^ 501 := by
      have e : (2 : ℝ) ^ 501 = 2 ^ 500 + 2 ^ 500 := by rw [← mul_two, ← pow_succ]
      rw [e]
      exact (abs_sub _ _).trans (add_le_add (hbl x hx) (hbl mx hmem))
    have ht : (x - mx) * p ≤ 0 := mul_nonpos_of_nonpos_of_nonneg hd hp
    have hc := prod_close A hp hp' hd'
    rw [abs_of_nonpos ht] at hc
    have h500 : (1 : ℝ) / 2 ^ 500 ≤ 1 / 2 ^ 60 := inv_pow_le (by norm_num)
    have he := exp_close ht (ε := 3 / 2 ^ 53) (τ := 1 / 2 ^ 500) (by positivity) (by norm_num) (by positivity)
      (h500.trans (by norm_num)) hc
    have h1 := hE (A.rnd (A.rnd (x - mx) * p)) (A.nonpos (mul_nonpos_of_nonpos_of_nonneg (A.nonpos hd) hp))
    generalize E.exp (A.rnd (A.rnd (x - mx) * p)) = a at *
    generalize A.rnd (A.rnd (x - mx) * p) = b at *
    have h2 := abs_add_le (a - Real.exp b) (Real.exp b - Real.exp ((x - mx) * p))
    rw [sub_add_sub_cancel] at h2
    refine h2.trans ((add_le_add h1 he).trans ?_)
    generalize (1 : ℝ) / 2 ^ 500 = t at *
    norm_num at h500 ⊢
    linarith
  have hrange : ∀ v ∈ l.map (fun x => E.exp (A.rnd (A.rnd (x - mx) * p))), 0 ≤ v ∧ v ≤ 1 ∧ A.rnd v = v := by
    intro v hv
    obtain ⟨x, hx, rfl⟩ := List.mem_map.1 hv
    refine ⟨E.nonneg _, ?_, E.repr _⟩
    rw [← E.zero]
    exact E.mono (A.nonpos (mul_nonpos_of_nonpos_of_nonneg (A.nonpos (by linarith [hm x hx])) hp))
  have hge := ((S.isSum (l.map fun x => E.exp (A.rnd (A.rnd (x - mx) * p)))).ge fun v hv =>
    ⟨(hrange v hv).1, (hrange v hv).2.2⟩).2
  have hone : (1 : ℝ) ≤ S.sum (l.map fun x => E.exp (A.rnd (A.rnd (x - mx) * p))) := by
    refine hge 1 (List.mem_map.2 ⟨mx, hmem, ?_⟩)
    rw [sub_self, A.zero, zero_mul, A.zero, E.zero]
  have himem : r i ∈ l := List.mem_of_getElem? hi
  have hile := hge _ (List.mem_map.2 ⟨r i, himem, rfl⟩)
  have hrat := (S.isSum (l.map fun x => E.exp (A.rnd (A.rnd (x - mx) * p)))).ratio_n hrange
    (by rw [List.length_map, hlen]; exact hn) hone
  rw [List.length_map, hlen] at hrat
  have hsum := sum_close (fun x => E.exp (A.rnd (A.rnd (x - mx) * p))) (fun x => Real.exp ((x - mx) * p)) _ l hδ
  rw [hlen] at hsum
  -- the shifted softmax
  have hshift : Real.exp (r i * p) / (l.map fun x => Real.exp (x * p)).sum =
      Real.exp ((r i - mx) * p) / (l.map fun x => Real.exp ((x - mx) * p)).sum := by
    have e1 : (l.map fun x => Real.exp (x * p)).sum = Real.exp (mx * p) * (l.map fun x => Real.exp ((x - mx) * p)).sum := by
      rw [← List.sum_map_mul_left]
      congr 1
      refine List.map_congr_left fun x _ => ?_
      rw [← Real.exp_add]
      congr 1
      ring
    have e2 : Real.exp (r i * p) = Real.exp (mx * p) * Real.exp ((r i - mx) * p) := by
      rw [← Real.exp_add]
      congr 1
      ring
    rw [e1, e2, mul_div_mul_left _ _ (Real.exp_pos _).ne']
  rw [hshift]
  have hXle : Real.exp ((r i - mx) * p) ≤ (l.map fun x => Real.exp ((x - mx) * p)).sum :=
    List.single_le_sum (fun v hv => by
      obtain ⟨x, -, rfl⟩ := List.mem_map.1 hv
      exact (Real.exp_pos _).le) _ (List.mem_map.2 ⟨r i, himem, rfl⟩)
  have hxp := Real.exp_pos ((r i - mx) * p)
  have hei := hδ _ himem
  have he0 := E.nonneg (A.rnd (A.rnd (r i - mx) * p))
  have hn1 : (1 : ℝ) ≤ n := by
    have : 1 ≤ n := Nat.pos_of_ne_zero (by rintro rfl; exact i.elim0)
    exact_mod_cast this
  generalize S.sum (l.map fun x => E.exp (A.rnd (A.rnd (x - mx) * p))) = s at *
  generalize (l.map fun x => E.exp (A.rnd (A.rnd (x - mx) * p))).sum = T at *
  generalize (l.map fun x => Real.exp ((x - mx) * p)).sum = X at *
  generalize E.exp (A.rnd (A.rnd (r i - mx) * p)) = e at *
  generalize Real.exp ((r i - mx) * p) = x at *
  have hsp : 0 < s := by linarith
  have hXp : 0 < X := lt_of_lt_of_le hxp hXle
  have hq0 : 0 ≤ e / s := div_nonneg he0 hsp.le
  have hq1 : e / s ≤ 1 := by rw [div_le_one hsp]; exact hile
  have herr := A.err (e / s) (by
    rw [abs_of_nonneg hq0]
    exact hq1.trans (one_le_pow₀ (by norm_num)))
  rw [abs_of_nonneg hq0] at herr
  have hr1 : |A.rnd (e / s) - e / s| ≤ 1 / 2 ^ 52 := by
    refine herr.trans ?_
    have h1 : e / s / 2 ^ 53 ≤ 1 / 2 ^ 53 := div_le_div_of_nonneg_right hq1 (by positivity)
    have h2 : (1 : ℝ) / 2 ^ 1075 ≤ 1 / 2 ^ 53 := inv_pow_le (by norm_num)
    have h3 : (1 : ℝ) / 2 ^ 53 + 1 / 2 ^ 53 = 1 / 2 ^ 52 := by norm_num
    rw [← h3]
    exact add_le_add h1 h2
  have hr2 : |e / s - x / X| ≤ 1 / 2 ^ 49 + (n * (1 / 2 ^ 49) + n / 2 ^ 51) := by
    have e1 : e / s - x / X = (e - x) / s + x / X * ((X - T) / s + (T / s - 1)) := by
      field_simp
      ring
    rw [e1]
    have a1 : |(e - x) / s| ≤ 1 / 2 ^ 49 := by
      rw [abs_div, abs_of_pos hsp]
      exact (div_le_self (abs_nonneg _) hone).trans hei
    have a2 : |(X - T) / s| ≤ n * (1 / 2 ^ 49) := by
      rw [abs_div, abs_of_pos hsp, abs_sub_comm]
      exact (div_le_self (abs_nonneg _) hone).trans hsum
    have a3 : |x / X| ≤ 1 := by
      rw [abs_of_nonneg (div_nonneg hxp.le hXp.le), div_le_one hXp]
      exact hXle
    refine (abs_add_le _ _).trans (add_le_add a1 ?_)
    rw [abs_mul]
    have a4 := (abs_add_le ((X - T) / s) (T / s - 1)).trans (add_le_add a2 hrat)
    calc |x / X| * |(X - T) / s + (T / s - 1)| ≤ 1 * |(X - T) / s + (T / s - 1)| :=
          mul_le_mul_of_nonneg_right a3 (abs_nonneg _)
      _ ≤ _ := by rw [one_mul]; exact a4
  have h := abs_add_le (A.rnd (e / s) - e / s) (e / s - x / X)
  rw [sub_add_sub_cancel] at h
  refine h.trans ((add_le_add hr1 hr2).trans ?_)
  norm_num
  linarith

/-- The correctly rounded exponential of binary64 is accurate enough for `C98_accurate`. -/
example : ∀ x ≤ 0, |(roundedExp binary64).exp x - Real.exp x| ≤ 1 / 2 ^ 50 := by
  intro x hx
  have h1 : Real.exp x ≤ 1 := Real.exp_le_one_iff.2 hx
  have h := binary64.err (Real.exp x) (by
    rw [abs_of_pos (Real.exp_pos x)]
    exact h1.trans (one_le_pow₀ (by norm_num)))
  rw [abs_of_pos (Real.exp_pos x)] at h
  refine h.trans ?_
  have h2 : Real.exp x / 2 ^ 53 ≤ 1 / 2 ^ 53 := div_le_div_of_nonneg_right h1 (by positivity)
  have h3 : (1 : ℝ) / 2 ^ 1075 ≤ 1 / 2 ^ 53 := inv_pow_le (by norm_num)
  refine (add_le_add h2 h3).trans ?_
  norm_num

end Lop.Props
