import Verif.Proofs.RoundedAcc
import Verif.Proofs.CovPSD
import Verif.Props.RoundedKernels
import Verif.Props.RoundedExact

/-! # C99: accuracy of the RBF kernel, positive definite matrices -/

namespace Lop.Props

open Lop

private lemma zipWith_fn' {d : Nat} (f : ℝ → ℝ → ℝ) (u v : Fin d → ℝ) :
    (List.ofFn u).zipWith f (List.ofFn v) = List.ofFn fun i => f (u i) (v i) := by
  apply List.ext_getElem
  · simp
  · intro i h1 h2
    simp

private lemma eight_tiny {ζ η : ℝ} (h1 : ζ ≤ 1 / 2 ^ 60) (h2 : η ≤ 1 / 2 ^ 60) : 2 * (2 * (2 * ζ) + η) ≤ 1 / 2 ^ 53 := by
  norm_num at h1 h2 ⊢
  linarith

private lemma arg_bound {b a ε ζ B : ℝ} (hε : ε ≤ 1) (ha : 0 ≤ a) (haB : a ≤ B) (hB : 1 ≤ B) (hζ : ζ ≤ 1)
    (h : |b - a| ≤ ε * a + ζ) : b ≤ 4 * B := by
  have := (abs_le.1 h).2
  nlinarith

/-- With rounding an entry of the RBF matrix without the noise differs from the exact value by at most
`(d + 11) / 2^51 * sigma^2`, if `np.exp` is accurate to `2^-50` on negative numbers. -/
theorem C99_rbf_accurate (A : FloatArith) (S : NpSum A) (E : NpExp A) (hE : ∀ x ≤ 0, |E.exp x - Real.exp x| ≤ 1 / 2 ^ 50)
    {d : Nat} (hd : d ≤ 2 ^ 20) (u v : Pt d) (sigma l : ℝ)
    (hu : ∀ i, A.rnd (u i) = u i ∧ |u i| ≤ 2 ^ 200) (hv : ∀ i, A.rnd (v i) = v i ∧ |v i| ≤ 2 ^ 200)
    (hl : 1 / 2 ^ 200 ≤ l) (hl' : l ≤ 2 ^ 200) (hs : 1 / 2 ^ 200 ≤ |sigma|) (hs' : |sigma| ≤ 2 ^ 200) :
    |rbfF A S E sigma l (List.ofFn u) (List.ofFn v) - rbfEval sigma l u v| ≤ (d + 11) / 2 ^ 51 * (sigma * sigma) := by
  have hdr : (d : ℝ) ≤ 2 ^ 20 := by exact_mod_cast hd
  have hd0 : (0 : ℝ) ≤ d := by positivity
  unfold rbfF rbfEval sqDist
  simp only [zipWith_fn', List.map_ofFn, Function.comp_def]
  obtain ⟨ht, hT⟩ := top_close A S hd u v hu hv
  obtain ⟨hden, hD⟩ := den_close A hl hl'
  have htop0 := ((S.isSum (List.ofFn fun i => A.rnd (A.rnd (u i - v i) * A.rnd (u i - v i)))).ge (by
      intro w hw
      rw [List.mem_ofFn] at hw
      obtain ⟨i, rfl⟩ := hw
      exact ⟨A.nonneg (mul_self_nonneg _), A.idem _⟩)).1
  have hT0 : 0 ≤ ∑ i, (u i - v i) * (u i - v i) := Finset.sum_nonneg fun i _ => mul_self_nonneg _
  generalize S.sum (List.ofFn fun i => A.rnd (A.rnd (u i - v i) * A.rnd (u i - v i))) = top at *
  generalize (∑ i, (u i - v i) * (u i - v i)) = T at *
  generalize A.rnd (A.rnd (2 * l) * l) = den at *
  have hD0 : 0 < 2 * l * l := lt_of_lt_of_le (by positivity) hD
  generalize 2 * l * l = D at *
  have haB : T / D ≤ 2 ^ 821 := by
    rw [div_le_iff₀ hD0]
    calc T ≤ 2 ^ 422 := hT
      _ = 2 ^ 821 * (1 / 2 ^ 399) := by
          rw [mul_one_div, eq_div_iff (by positivity), ← pow_add]
      _ ≤ 2 ^ 821 * D := mul_le_mul_of_nonneg_left hD (by positivity)
  have hζ : 2 * ((d : ℝ) * (1 / 2 ^ 1075)) ≤ 1 / 2 ^ 600 * D := by
    calc 2 * ((d : ℝ) * (1 / 2 ^ 1075)) ≤ 2 * (2 ^ 20 * (1 / 2 ^ 1075)) :=
          mul_le_mul_of_nonneg_left (mul_le_mul_of_nonneg_right hdr (by positivity)) (by norm_num)
      _ = 1 / 2 ^ 1054 := by
          rw [← mul_assoc, ← pow_succ', mul_one_div, div_eq_div_iff (by positivity) (by positivity), ← pow_add, one_mul]
      _ ≤ 1 / 2 ^ 999 := inv_pow_le (by norm_num)
      _ = 1 / 2 ^ 600 * (1 / 2 ^ 399) := by rw [one_div_mul_one_div, ← pow_add]
      _ ≤ _ := mul_le_mul_of_nonneg_left hD (by positivity)
  have hdU : (2 * (d : ℝ) + 15) * (1 / 2 ^ 53) ≤ 1 / 64 := by
    have hdr' : (d : ℝ) ≤ 1048576 := hdr.trans (by norm_num)
    norm_num
    linarith
  have hq := quot_close hd0 (ζ := 1 / 2 ^ 600) (by positivity) (by norm_num) (by norm_num at hdU ⊢; linarith) (by positivity) hT0 hD0
    (ht.trans (add_le_add le_rfl hζ)) hden
  have ha : 0 ≤ T / D := div_nonneg hT0 hD0.le
  have hden0 : 0 < den := by
    have := (abs_le.1 hden).1
    norm_num at this
    linarith
  have hb0 : 0 ≤ top / den := div_nonneg htop0 hden0.le
  have h600 : (1 : ℝ) / 2 ^ 600 ≤ 1 / 2 ^ 60 := inv_pow_le (by norm_num)
  have h1075 : (1 : ℝ) / 2 ^ 1075 ≤ 1 / 2 ^ 60 := inv_pow_le (by norm_num)
  have hbB := arg_bound (by norm_num at hdU ⊢; linarith) ha haB (one_le_pow₀ (by norm_num))
    (le_trans (mul_le_mul_of_nonneg_left h600 (by norm_num)) (by norm_num)) hq
  have herr := A.err (-top / den) (by
    rw [neg_div, abs_neg, abs_of_nonneg hb0]
    refine hbB.trans ?_
    calc (4 : ℝ) * 2 ^ 821 = 2 ^ 823 := by rw [show (4 : ℝ) = 2 ^ 2 by norm_num, ← pow_add]
      _ ≤ _ := two_pow_le (by norm_num))
  have hneg : A.rnd (-top / den) ≤ 0 := A.nonpos (by rw [neg_div]; linarith)
  rw [neg_div, abs_neg, abs_of_nonneg hb0, div_eq_mul_one_div (top / den), mul_comm (top / den)] at herr
  rw [neg_div] at hneg
  rw [neg_div, neg_div]
  generalize top / den = b at *
  generalize T / D = a at *
  generalize A.rnd (-b) = t at *
  have harg := arg_close (by positivity) (by norm_num) (by norm_num at hdU ⊢; linarith) (by positivity) ha hq herr
  have heps : (2 * (d : ℝ) + 13) * (1 / 2 ^ 53) + 2 * (1 / 2 ^ 53) = (2 * d + 15) * (1 / 2 ^ 53) := by ring
  rw [heps] at harg
  have htiny := eight_tiny h600 h1075
  have hexp := exp_close (t := -a) (t' := t) (ε := (2 * d + 15) * (1 / 2 ^ 53)) (τ := 2 * (2 * (1 / 2 ^ 600)) + 1 / 2 ^ 1075)
    (by linarith) (by positivity) (hdU.trans (by norm_num)) (by positivity) (by
      generalize 2 * (2 * ((1 : ℝ) / 2 ^ 600)) + 1 / 2 ^ 1075 = τ at *
      norm_num at htiny ⊢
      linarith) (by rw [neg_neg]; exact harg)
  have hee := hE t hneg
  have hδ : |E.exp t - Real.exp (-a)| ≤ (4 * d + 39) * (1 / 2 ^ 53) := by
    have h1 := abs_add_le (E.exp t - Real.exp t) (Real.exp t - Real.exp (-a))
    rw [sub_add_sub_cancel] at h1
    generalize 2 * (2 * ((1 : ℝ) / 2 ^ 600)) + 1 / 2 ^ 1075 = τ at *
    refine h1.trans ((add_le_add hee hexp).trans ?_)
    norm_num at htiny ⊢
    linarith
  have hlow : 1 / 2 ^ 400 ≤ sigma * sigma := by
    rw [← abs_mul_abs_self]
    calc (1 : ℝ) / 2 ^ 400 = 1 / 2 ^ 200 * (1 / 2 ^ 200) := by rw [one_div_mul_one_div, ← pow_add]
      _ ≤ _ := mul_le_mul hs hs (by positivity) (abs_nonneg _)
  have hhigh : sigma * sigma ≤ 2 ^ 400 := by
    rw [← abs_mul_abs_self]
    calc |sigma| * |sigma| ≤ 2 ^ 200 * 2 ^ 200 := mul_le_mul hs' hs' (abs_nonneg _) (by positivity)
      _ = _ := by rw [← pow_add]
  have hrel := A.rel_abs ((inv_pow_le (by norm_num : 400 ≤ 1022)).trans hlow) (hhigh.trans (two_pow_le (by norm_num)))
  have hσ0 : 0 ≤ sigma * sigma := mul_self_nonneg _
  have hη : (1 : ℝ) / 2 ^ 1075 ≤ 1 / 2 ^ 53 / 2 * (sigma * sigma) := by
    calc (1 : ℝ) / 2 ^ 1075 ≤ 1 / 2 ^ 454 := inv_pow_le (by norm_num)
      _ = 1 / 2 ^ 53 / 2 * (1 / 2 ^ 400) := by
          rw [div_div, ← pow_succ, one_div_mul_one_div, ← pow_add]
      _ ≤ _ := mul_le_mul_of_nonneg_left hlow (by positivity)
  have he1 : E.exp t ≤ 1 := by
    rw [← E.zero]
    exact E.mono hneg
  have he0 := E.nonneg t
  have hs20 : 0 ≤ A.rnd (sigma * sigma) := A.nonneg hσ0
  have hs2 : A.rnd (sigma * sigma) ≤ 2 * (sigma * sigma) := by
    have := (abs_le.1 hrel).2
    norm_num at this
    linarith
  have hp0 : 0 ≤ A.rnd (sigma * sigma) * E.exp t := mul_nonneg hs20 he0
  have hout := A.err (A.rnd (sigma * sigma) * E.exp t) (by
    rw [abs_of_nonneg hp0]
    calc A.rnd (sigma * sigma) * E.exp t ≤ A.rnd (sigma * sigma) * 1 := mul_le_mul_of_nonneg_left he1 hs20
      _ ≤ 2 * (sigma * sigma) := by rw [mul_one]; exact hs2
      _ ≤ 2 * 2 ^ 400 := mul_le_mul_of_nonneg_left hhigh (by norm_num)
      _ = 2 ^ 401 := by rw [← pow_succ']
      _ ≤ _ := two_pow_le (by norm_num))
  rw [abs_of_nonneg hp0, div_eq_mul_one_div (A.rnd (sigma * sigma) * E.exp t), mul_comm (A.rnd (sigma * sigma) * E.exp t)] at hout
  have hfin := out_close hσ0 (U := 1 / 2 ^ 53) (by positivity) (by norm_num) (hrel.trans (le_of_eq (by ring))) he0 he1 hδ
    (hout.trans (add_le_add le_rfl hη))
  refine hfin.trans (mul_le_mul_of_nonneg_right ?_ hσ0)
  norm_num
  linarith

/-- A matrix close to a positive semidefinite one, with more on the diagonal. -/
private lemma posDef_of_close {n : Nat} {K M : Matrix (Fin n) (Fin n) ℝ} (hK : K.PosSemidef) (hM : ∀ i j, M i j = M j i)
    {δ β : ℝ} (hδ : 0 ≤ δ) (hoff : ∀ i j, i ≠ j → |M i j - K i j| ≤ δ) (hdiag : ∀ i, K i i + β ≤ M i i) (hβ : n * δ < β) :
    M.PosDef := by
  refine Matrix.PosDef.of_dotProduct_mulVec_pos ?_ fun x hx => ?_
  · ext i j
    simp [hM j i]
  have h1 := hK.dotProduct_mulVec_nonneg x
  have expand : ∀ N : Matrix (Fin n) (Fin n) ℝ, star x ⬝ᵥ N.mulVec x = ∑ i, ∑ j, N i j * (x i * x j) := by
    intro N
    simp only [dotProduct, Matrix.mulVec, Finset.mul_sum, Pi.star_apply, star_trivial]
    refine Finset.sum_congr rfl fun i _ => Finset.sum_congr rfl fun j _ => ?_
    ring
  rw [expand] at h1 ⊢
  have hterm : ∀ i j, K i j * (x i * x j) + ((if i = j then β * (x i * x i) else 0) - δ / 2 * (x i * x i) - δ / 2 * (x j * x j)) ≤
      M i j * (x i * x j) := by
    intro i j
    by_cases hij : i = j
    · subst hij
      rw [if_pos rfl]
      have := mul_le_mul_of_nonneg_right (hdiag i) (mul_self_nonneg (x i))
      have := mul_nonneg hδ (mul_self_nonneg (x i))
      linarith
    · rw [if_neg hij]
      have h2 : -(δ * (|x i| * |x j|)) ≤ (M i j - K i j) * (x i * x j) := by
        have := neg_abs_le ((M i j - K i j) * (x i * x j))
        rw [abs_mul, abs_mul] at this
        have := mul_le_mul_of_nonneg_right (hoff i j hij) (mul_nonneg (abs_nonneg (x i)) (abs_nonneg (x j)))
        linarith
      have h3 : δ * (|x i| * |x j|) ≤ δ / 2 * (x i * x i) + δ / 2 * (x j * x j) := by
        have h4 : |x i| * |x j| ≤ (x i * x i + x j * x j) / 2 := by
          rw [← abs_mul_abs_self (x i), ← abs_mul_abs_self (x j)]
          nlinarith [mul_self_nonneg (|x i| - |x j|)]
        have := mul_le_mul_of_nonneg_left h4 hδ
        linarith
      linarith
  have hsum := Finset.sum_le_sum fun i (_ : i ∈ Finset.univ) => Finset.sum_le_sum fun j (_ : j ∈ Finset.univ) => hterm i j
  have hval : ∑ i, ∑ j, (K i j * (x i * x j) + ((if i = j then β * (x i * x i) else 0) - δ / 2 * (x i * x i) - δ / 2 * (x j * x j))) =
      ∑ i, ∑ j, K i j * (x i * x j) + (β - n * δ) * ∑ i, x i * x i := by
    simp only [Finset.sum_add_distrib, Finset.sum_sub_distrib, Finset.sum_ite_eq, Finset.mem_univ, if_true, Finset.sum_const,
      Finset.card_univ, Fintype.card_fin, nsmul_eq_mul, ← Finset.mul_sum]
    ring
  rw [hval] at hsum
  have hpos : 0 < ∑ i, x i * x i := by
    obtain ⟨i, hi⟩ := Function.ne_iff.1 hx
    exact Finset.sum_pos' (fun j _ => mul_self_nonneg _) ⟨i, Finset.mem_univ _, mul_self_pos.2 hi⟩
  have := mul_pos (sub_pos.2 hβ) hpos
  linarith

private lemma pd_aux {n d s2 σ noise k U : ℝ} (hU : 0 < U) (hU' : U ≤ 1 / 64) (hn : 1 ≤ n) (hd : 0 ≤ d) (hσ : 0 < σ)
    (h1 : |s2 - σ| ≤ 2 * U * σ) (hno : n * (d + 12) * (8 * U) * σ ≤ noise)
    (hk : (1 - U) * (s2 + noise) ≤ k) : σ + (noise / 2 + n * (2 * U) * σ) ≤ k ∧ n * ((d + 11) * (4 * U) * σ) < noise / 2 + n * (2 * U) * σ := by
  have hnU : U * σ ≤ n * (U * σ) := le_mul_of_one_le_left (by positivity) hn
  have hnd : 0 ≤ n * d * (U * σ) := by positivity
  constructor
  · have h2 := (abs_le.1 h1).1
    have h3 : (1 - U) * (σ - 2 * U * σ + noise) ≤ (1 - U) * (s2 + noise) := mul_le_mul_of_nonneg_left (by linarith) (by linarith)
    have h4 : 0 ≤ noise * (1 / 2 - U - 1 / 4) := mul_nonneg (le_trans (by positivity) hno) (by linarith)
    have h5 : 0 ≤ U * (U * σ) := by positivity
    nlinarith
  · nlinarith

/-- With rounding the RBF matrix of points with `d` coordinates is symmetric and positive definite if the noise on the
diagonal is a float of at least `n (d + 12) / 2^50 * sigma^2`. -/
theorem C99_rbf_posdef (A : FloatArith) (S : NpSum A) (E : NpExp A) (hE : ∀ x ≤ 0, |E.exp x - Real.exp x| ≤ 1 / 2 ^ 50)
    {d n : Nat} (hd : d ≤ 2 ^ 20) (X : Fin n → Pt d) (sigma l noise : ℝ)
    (hX : ∀ i k, A.rnd (X i k) = X i k ∧ |X i k| ≤ 2 ^ 200)
    (hl : 1 / 2 ^ 200 ≤ l) (hl' : l ≤ 2 ^ 200) (hs : 1 / 2 ^ 200 ≤ |sigma|) (hs' : |sigma| ≤ 2 ^ 200)
    (hr : A.rnd noise = noise) (hno : n * (d + 12) / 2 ^ 50 * (sigma * sigma) ≤ noise) (hno' : noise ≤ 2 ^ 500) :
    (Matrix.of (rbfCovF A S E sigma l noise fun i => List.ofFn (X i))).PosDef := by
  rcases Nat.eq_zero_or_pos n with rfl | hn
  · refine Matrix.PosDef.of_dotProduct_mulVec_pos ?_ fun x hx => ?_
    · ext i
      exact i.elim0
    · exact absurd (funext fun i => i.elim0) hx
  have hlow : 1 / 2 ^ 400 ≤ sigma * sigma := by
    rw [← abs_mul_abs_self]
    calc (1 : ℝ) / 2 ^ 400 = 1 / 2 ^ 200 * (1 / 2 ^ 200) := by rw [one_div_mul_one_div, ← pow_add]
      _ ≤ _ := mul_le_mul hs hs (by positivity) (abs_nonneg _)
  have hhigh : sigma * sigma ≤ 2 ^ 400 := by
    rw [← abs_mul_abs_self]
    calc |sigma| * |sigma| ≤ 2 ^ 200 * 2 ^ 200 := mul_le_mul hs' hs' (abs_nonneg _) (by positivity)
      _ = _ := by rw [← pow_add]
  have hrel := A.rel_abs ((inv_pow_le (by norm_num : 400 ≤ 1022)).trans hlow) (hhigh.trans (two_pow_le (by norm_num)))
  have hσ0 : 0 < sigma * sigma := lt_of_lt_of_le (by positivity) hlow
  have hn1 : (1 : ℝ) ≤ n := by exact_mod_cast hn
  have hno0 : 0 ≤ noise := le_trans (by positivity) hno
  have hdiag : ∀ x, rbfF A S E sigma l x x = A.rnd (sigma * sigma) :=
    (C99_rbf_range A S E sigma l ((inv_pow_le (by norm_num : 200 ≤ 500)).trans hl)).2.1
  have hk : (1 - 1 / 2 ^ 53) * (A.rnd (sigma * sigma) + noise) ≤ A.rnd (A.rnd (sigma * sigma) + noise) := by
    have hs2 : A.rnd (sigma * sigma) ≤ 2 * (sigma * sigma) := by
      have := (abs_le.1 hrel).2
      norm_num at this
      linarith
    have h0 : 0 ≤ A.rnd (sigma * sigma) + noise := add_nonneg (A.nonneg hσ0.le) hno0
    have h := A.err_add _ _ (A.idem (sigma * sigma)) hr (by
      rw [abs_of_nonneg h0]
      have e1 : (2 : ℝ) ^ 400 ≤ 2 ^ 500 := two_pow_le (by norm_num)
      have e2 : (4 : ℝ) * 2 ^ 500 ≤ 2 ^ 1023 := by
        rw [show (4 : ℝ) = 2 ^ 2 by norm_num, ← pow_add]
        exact two_pow_le (by norm_num)
      generalize (2 : ℝ) ^ 500 = B at *
      refine le_trans ?_ e2
      clear e2
      generalize (2 : ℝ) ^ 400 = C at *
      linarith)
    rw [abs_of_nonneg h0, div_eq_mul_one_div (A.rnd (sigma * sigma) + noise)] at h
    have := (abs_le.1 h).1
    linarith
  obtain ⟨p1, p2⟩ := pd_aux (n := n) (d := d) (U := 1 / 2 ^ 53) (by positivity) (by norm_num) hn1 (by positivity) hσ0
    (hrel.trans (le_of_eq (by ring))) (le_trans (le_of_eq (by ring)) hno) hk
  refine posDef_of_close (psd_rbf sigma l X) ?_ (δ := (d + 11) * (4 * (1 / 2 ^ 53)) * (sigma * sigma))
    (β := noise / 2 + n * (2 * (1 / 2 ^ 53)) * (sigma * sigma)) (by positivity) ?_ ?_ p2
  · intro i j
    exact (C99_symmetric A S E).1 n sigma l noise (fun i => List.ofFn (X i)) i j
  · intro i j hij
    simp only [Matrix.of_apply, rbfCovF]
    rw [if_neg hij, zero_mul, A.zero, add_zero]
    have hidem : A.rnd (rbfF A S E sigma l (List.ofFn (X i)) (List.ofFn (X j))) =
        rbfF A S E sigma l (List.ofFn (X i)) (List.ofFn (X j)) := A.idem _
    rw [hidem]
    refine (C99_rbf_accurate A S E hE hd (X i) (X j) sigma l (hX i) (hX j) hl hl' hs hs').trans (le_of_eq ?_)
    ring
  · intro i
    simp only [Matrix.of_apply, rbfCovF, if_true]
    rw [one_mul, hr, hdiag]
    have e : rbfEval sigma l (X i) (X i) = sigma * sigma := by simp [rbfEval, sqDist]
    rw [e]
    exact p1

private lemma pow_two_u {u : ℝ} (h0 : 0 ≤ u) (k : Nat) (hk : 2 * (k * u) ≤ 1) : (1 + u) ^ k ≤ 1 + 2 * (k * u) := by
  induction k with
  | zero => simp
  | succ k ih =>
    push_cast at hk ⊢
    have h1 := ih (by nlinarith)
    rw [pow_succ]
    have h2 := mul_le_mul_of_nonneg_right h1 (by linarith : 0 ≤ 1 + u)
    have h3 : 2 * (k * u) * u ≤ 1 * u := mul_le_mul_of_nonneg_right (by nlinarith) h0
    linarith

/-- The error of adding floats up one after the other. -/
private lemma seq_error (A : FloatArith) {α : Type} (w : α → ℝ) (l : List α) : ∀ (f s P : ℝ) (k : Nat), A.rnd f = f →
    (∀ e ∈ l, A.rnd (w e) = w e) → |s| ≤ P → |f - s| ≤ ((1 + 1 / 2 ^ 53) ^ k - 1) * P →
    k + l.length ≤ 2 ^ 40 → P + (l.map fun e => |w e|).sum ≤ 2 ^ 1000 →
    |l.foldl (fun s e => A.rnd (s + w e)) f - (s + (l.map w).sum)| ≤
      ((1 + 1 / 2 ^ 53) ^ (k + l.length) - 1) * (P + (l.map fun e => |w e|).sum) := by
  induction l with
  | nil =>
    intro f s P k _ _ _ h _ _
    simpa using h
  | cons e l ih =>
    intro f s P k hf hw hs h hk hP
    have hP0 : 0 ≤ P := (abs_nonneg _).trans hs
    have hl0 : 0 ≤ (l.map fun e => |w e|).sum := List.sum_nonneg (by
      intro v hv
      obtain ⟨x, -, rfl⟩ := List.mem_map.1 hv
      exact abs_nonneg _)
    simp only [List.map_cons, List.sum_cons, List.length_cons, List.foldl_cons] at hk hP ⊢
    have he : |s + w e| ≤ P + |w e| := (abs_add_le _ _).trans (add_le_add hs le_rfl)
    have hq1 : (1 : ℝ) ≤ (1 + 1 / 2 ^ 53) ^ k := one_le_pow₀ (by norm_num)
    have hq2 : ((1 : ℝ) + 1 / 2 ^ 53) ^ k ≤ 2 := by
      have hkr : (k : ℝ) ≤ 2 ^ 40 := by
        have : k ≤ 2 ^ 40 := by omega
        exact_mod_cast this
      have hkr' : (k : ℝ) ≤ 1099511627776 := hkr.trans (by norm_num)
      have h2 : 2 * ((k : ℝ) * (1 / 2 ^ 53)) ≤ 1 := by
        norm_num
        linarith
      exact (pow_two_u (by positivity) k h2).trans (by linarith)
    have hwe := abs_nonneg (w e)
    have hfe : |f + w e - (s + w e)| ≤ ((1 + 1 / 2 ^ 53) ^ k - 1) * (P + |w e|) := by
      rw [add_sub_add_right_eq_sub]
      exact h.trans (mul_le_mul_of_nonneg_left (by linarith) (by linarith))
    have hfe' : |f + w e| ≤ (1 + 1 / 2 ^ 53) ^ k * (P + |w e|) := by
      have := abs_add_le (f + w e - (s + w e)) (s + w e)
      rw [sub_add_cancel] at this
      rw [sub_mul, one_mul] at hfe
      linarith
    have herr := A.err_add f (w e) hf (hw e (by simp)) (by
      refine hfe'.trans ?_
      have h1 : (1 + 1 / 2 ^ 53) ^ k * (P + |w e|) ≤ 2 * (P + |w e|) := mul_le_mul_of_nonneg_right hq2 (by linarith)
      have h2 : P + |w e| ≤ 2 ^ 1000 := le_trans (by linarith) hP
      have h3 : (2 : ℝ) * 2 ^ 1000 ≤ 2 ^ 1023 := by
        rw [← pow_succ']
        exact two_pow_le (by norm_num)
      exact h1.trans ((mul_le_mul_of_nonneg_left h2 (by norm_num)).trans h3))
    have hnew : |A.rnd (f + w e) - (s + w e)| ≤ ((1 + 1 / 2 ^ 53) ^ (k + 1) - 1) * (P + |w e|) := by
      have h1 := abs_add_le (A.rnd (f + w e) - (f + w e)) (f + w e - (s + w e))
      rw [sub_add_sub_cancel] at h1
      have h2 : |f + w e| / 2 ^ 53 ≤ (1 + 1 / 2 ^ 53) ^ k * (P + |w e|) / 2 ^ 53 :=
        div_le_div_of_nonneg_right hfe' (by positivity)
      refine h1.trans ((add_le_add (herr.trans h2) hfe).trans (le_of_eq ?_))
      rw [pow_succ]
      ring
    have := ih (A.rnd (f + w e)) (s + w e) (P + |w e|) (k + 1) (A.idem _) (fun e he => hw e (by simp [he])) he hnew
      (by omega) (by rw [add_assoc]; exact hP)
    rw [add_assoc s, add_assoc P, Nat.add_assoc k, Nat.add_comm 1] at this
    exact this

private lemma addUpMatF_append {A : FloatArith} {n : Nat} (l l' : List ((Fin n × Fin n) × ℝ)) (M : Fin n → Fin n → ℝ) :
    addUpMatF A l' (addUpMatF A l M) = addUpMatF A (l ++ l') M := by
  unfold addUpMatF
  rw [List.foldl_append]

private lemma filter_sum_le {α : Type} (p : α → Bool) (f : α → ℝ) (hf : ∀ x, 0 ≤ f x) (l : List α) :
    ((l.filter p).map f).sum ≤ (l.map f).sum := by
  induction l with
  | nil => simp
  | cons a l ih =>
    by_cases h : p a = true
    · rw [List.filter_cons_of_pos h]
      simp only [List.map_cons, List.sum_cons]
      linarith
    · rw [List.filter_cons_of_neg h]
      simp only [List.map_cons, List.sum_cons]
      linarith [hf a]

private lemma foldl_add_eq {α : Type} (w : α → ℝ) (l : List α) (s : ℝ) :
    l.foldl (fun s e => s + w e) s = s + (l.map w).sum := by
  induction l generalizing s with
  | nil => simp
  | cons a l ih =>
    rw [List.foldl_cons, ih, List.map_cons, List.sum_cons, add_assoc]

/-- With rounding every entry of the matrix `W` of `m` pairs differs from the exact sum of the same second derivatives by at
most `m / 2^48` times the sum of their absolute values. -/
theorem C99_pairs_accurate (A : FloatArith) {n : Nat} (y : List (IPair n)) (w : IPair n → ℝ)
    (hw : ∀ p ∈ y, A.rnd (w p) = w p) (hm : y.length ≤ 2 ^ 38) (hb : (y.map fun p => |w p|).sum ≤ 2 ^ 900) (a b : Fin n) :
    |pairWF A (y.map fun p => ((p.u, p.v), w p)) a b - addUpPairs y w a b| ≤
      y.length / 2 ^ 48 * (y.map fun p => |w p|).sum := by
  have hn : 0 < n := Nat.lt_of_le_of_lt (Nat.zero_le _) a.isLt
  rw [← (C99_matrices_exact (d := 0) 0 0 0 (fun _ _ => 0) hn y w).2]
  set l := y.map fun p => ((p.u, p.v), w p) with hl
  have hform : ∀ B : FloatArith, ∃ L : List ((Fin n × Fin n) × ℝ), L = l.map (fun e => ((e.1.1, e.1.1), -e.2)) ++
      l.map (fun e => ((e.1.1, e.1.2), e.2)) ++ l.map (fun e => ((e.1.2, e.1.1), e.2)) ++ l.map (fun e => ((e.1.2, e.1.2), -e.2)) ∧
      pairWF B l a b = (L.filter fun e => (a, b) = e.1).foldl (fun s e => B.rnd (s + e.2)) 0 := by
    intro B
    refine ⟨_, rfl, ?_⟩
    unfold pairWF
    simp only [addUpMatF_append]
    rw [addUpMatF_eq]
  obtain ⟨L, hL, h1⟩ := hform A
  obtain ⟨L', hL', h2⟩ := hform exactArith
  rw [← hL] at hL'
  subst hL'
  rw [Matrix.of_apply, h1, h2]
  have hS0 : 0 ≤ (y.map fun p => |w p|).sum := List.sum_nonneg (by
    intro v hv
    obtain ⟨x, -, rfl⟩ := List.mem_map.1 hv
    exact abs_nonneg _)
  have hLsum : (L'.map fun e => |e.2|).sum = 4 * (y.map fun p => |w p|).sum := by
    rw [hL, hl]
    simp only [List.map_append, List.map_map, List.sum_append, Function.comp_def, abs_neg]
    ring
  have hLlen : L'.length = 4 * y.length := by
    rw [hL, hl]
    simp only [List.length_append, List.length_map]
    ring
  have hLrep : ∀ e ∈ L', A.rnd e.2 = e.2 := by
    intro e he
    rw [hL, hl] at he
    simp only [List.mem_append, List.mem_map, exists_exists_and_eq_and] at he
    rcases he with ((⟨p, hp, rfl⟩ | ⟨p, hp, rfl⟩) | ⟨p, hp, rfl⟩) | ⟨p, hp, rfl⟩
    · simp only [A.neg, hw p hp]
    · exact hw p hp
    · exact hw p hp
    · simp only [A.neg, hw p hp]
  set F := L'.filter fun e => (a, b) = e.1 with hF
  have hFlen : F.length ≤ 4 * y.length := hLlen ▸ List.length_filter_le _ _
  have hFsum : (F.map fun e => |e.2|).sum ≤ 4 * (y.map fun p => |w p|).sum := by
    rw [← hLsum]
    exact filter_sum_le _ _ (fun _ => abs_nonneg _) _
  have hFsum0 : 0 ≤ (F.map fun e => |e.2|).sum := List.sum_nonneg (by
    intro v hv
    obtain ⟨x, -, rfl⟩ := List.mem_map.1 hv
    exact abs_nonneg _)
  have hex : F.foldl (fun s e => exactArith.rnd (s + e.2)) 0 = 0 + (F.map fun e => e.2).sum := foldl_add_eq _ _ _
  rw [hex]
  have hFk : F.length ≤ 2 ^ 40 := hFlen.trans (by
    calc 4 * y.length ≤ 4 * 2 ^ 38 := Nat.mul_le_mul_left _ hm
      _ = 2 ^ 40 := by norm_num)
  have h := seq_error A (fun e : (Fin n × Fin n) × ℝ => e.2) F 0 0 0 0 A.zero
    (fun e he => hLrep e (List.mem_of_mem_filter he)) (by simp) (by simp) (by omega) (by
      rw [zero_add]
      refine hFsum.trans ?_
      have h3 : (4 : ℝ) * 2 ^ 900 ≤ 2 ^ 1000 := by
        rw [show (4 : ℝ) = 2 ^ 2 by norm_num, ← pow_add]
        exact two_pow_le (by norm_num)
      exact (mul_le_mul_of_nonneg_left hb (by norm_num)).trans h3)
  rw [Nat.zero_add] at h
  refine h.trans ?_
  have hkr : (F.length : ℝ) ≤ 1099511627776 := by
    have : F.length ≤ 1099511627776 := hFk
    exact_mod_cast this
  have hfl : (F.length : ℝ) ≤ 4 * y.length := by exact_mod_cast hFlen
  have hpow := pow_two_u (u := 1 / 2 ^ 53) (by positivity) F.length (by
    norm_num
    linarith)
  calc ((1 + 1 / 2 ^ 53) ^ F.length - 1) * (0 + (F.map fun e => |e.2|).sum)
      ≤ (2 * (F.length * (1 / 2 ^ 53))) * (0 + (F.map fun e => |e.2|).sum) :=
        mul_le_mul_of_nonneg_right (by linarith) (by linarith)
    _ ≤ (2 * (4 * y.length * (1 / 2 ^ 53))) * (4 * (y.map fun p => |w p|).sum) := by
        refine mul_le_mul ?_ (by linarith) (by linarith) (by positivity)
        exact mul_le_mul_of_nonneg_left (mul_le_mul_of_nonneg_right hfl (by positivity)) (by norm_num)
    _ = _ := by ring

/-- The hypotheses of `C99_rbf_accurate` and `C99_rbf_posdef` hold of three numbers with the default parameters
`sigma = 1.0`, `l = 1.0` and the noise `0.01`. -/
example : (∀ (i : Fin 3) (k : Fin 1), binary64.rnd ((fun (i : Fin 3) (_ : Fin 1) => (i.val : ℝ)) i k) = i.val ∧ |(i.val : ℝ)| ≤ 2 ^ 200) ∧
    (1 : ℝ) / 2 ^ 200 ≤ 1 ∧ (1 : ℝ) ≤ 2 ^ 200 ∧
    binary64.rnd (binary64.rnd (1 / 100)) = binary64.rnd (1 / 100) ∧
    ((3 : Nat) : ℝ) * ((1 : Nat) + 12) / 2 ^ 50 * (1 * 1) ≤ binary64.rnd (1 / 100) ∧ binary64.rnd (1 / 100) ≤ 2 ^ 500 := by
  have hrel := binary64.rel_abs (x := 1 / 100) (by
    calc (1 : ℝ) / 2 ^ 1022 ≤ 1 / 2 ^ 7 := inv_pow_le (by norm_num)
      _ ≤ _ := by norm_num) (by
    calc (1 : ℝ) / 100 ≤ 2 ^ 0 := by norm_num
      _ ≤ _ := two_pow_le (by norm_num))
  have h1 := (abs_le.1 hrel).1
  have h2 := (abs_le.1 hrel).2
  refine ⟨?_, by norm_num, by norm_num, binary64.idem _, ?_, ?_⟩
  · intro i k
    refine ⟨binary64.nat _ (by have := i.isLt; omega), ?_⟩
    rw [abs_of_nonneg (by positivity)]
    have : (i.val : ℝ) ≤ 3 := by exact_mod_cast i.isLt.le
    exact this.trans (by norm_num)
  · norm_num at h1 ⊢
    linarith
  · calc binary64.rnd (1 / 100) ≤ 2 ^ 0 := by
          norm_num at h2 ⊢
          linarith
      _ ≤ _ := two_pow_le (by norm_num)

/-- Two pairs that satisfy the hypotheses of `C99_pairs_accurate`. -/
example : let y : List (IPair 3) := [⟨1, 0, 1⟩, ⟨1, 2, 1⟩]; let w : IPair 3 → ℝ := fun _ => -1
    (∀ p ∈ y, binary64.rnd (w p) = w p) ∧ y.length ≤ 2 ^ 38 ∧ (y.map fun p => |w p|).sum ≤ 2 ^ 900 := by
  refine ⟨fun p _ => by rw [binary64.neg, FloatArith.one], by norm_num, ?_⟩
  simp only [List.map_cons, List.map_nil, List.sum_cons, List.sum_nil, abs_neg, abs_one]
  calc (1 : ℝ) + (1 + 0) ≤ 2 ^ 1 := by norm_num
    _ ≤ _ := two_pow_le (by norm_num)

end Lop.Props
