import Verif.Proofs.Rounded

/-! # C99: kernel matrices and the matrix of the pairs with rounding -/

namespace Lop.Props

open Lop

/-- With rounding, whatever the order of the summation over the coordinates, the covariance matrices are exactly
symmetric. -/
theorem C99_symmetric (A : FloatArith) (S : NpSum A) (E : NpExp A) :
    (∀ (n : Nat) (sigma l noise : ℝ) (X : Fin n → List ℝ) (i j : Fin n),
      rbfCovF A S E sigma l noise X i j = rbfCovF A S E sigma l noise X j i) ∧
    (∀ (sigma sigmaB c : ℝ) (x y : List ℝ), linF A S sigma sigmaB c x y = linF A S sigma sigmaB c y x) ∧
    (∀ (sin : ℝ → ℝ) (pi sigma l p : ℝ) (x y : List ℝ),
      perF A S E sin pi sigma l p x y = perF A S E sin pi sigma l p y x) := by
  refine ⟨fun n sigma l noise X i j => ?_, fun sigma sigmaB c x y => ?_, fun sin pi sigma l p x y => ?_⟩
  · have h : rbfF A S E sigma l (X i) (X j) = rbfF A S E sigma l (X j) (X i) := by
      unfold rbfF
      simp only [List.map_zipWith]
      rw [zipWith_swap (fun a b => A.rnd (A.rnd (a - b) * A.rnd (a - b)))]
      intro a b
      rw [← neg_sub b a, A.neg, neg_mul_neg]
    unfold rbfCovF
    rw [h]
    by_cases hij : i = j
    · rw [hij]
    · rw [if_neg hij, if_neg (Ne.symm hij)]
  · unfold linF
    simp only
    rw [zipWith_swap (fun a b => A.rnd (A.rnd (a - c) * A.rnd (b - c)))]
    intro a b
    rw [mul_comm]
  · unfold perF
    simp only
    rw [zipWith_swap (fun a b => |A.rnd (a - b)|)]
    intro a b
    rw [← neg_sub b a, A.neg, abs_neg]

private lemma rbf_top {A : FloatArith} (S : NpSum A) (x y : List ℝ) :
    0 ≤ S.sum ((x.zipWith (fun a b => A.rnd (a - b)) y).map fun d => A.rnd (d * d)) := by
  refine ((S.isSum _).ge fun v hv => ?_).1
  obtain ⟨d, -, rfl⟩ := List.mem_map.1 hv
  exact ⟨A.nonneg (mul_self_nonneg d), A.idem _⟩

private lemma zip_self (g : ℝ → ℝ) (x : List ℝ) (f : ℝ → ℝ → ℝ) (hf : ∀ a, f a a = 0) (hg : g 0 = 0) :
    ∀ v ∈ (x.zipWith f x).map g, v = 0 := by
  intro v hv
  obtain ⟨d, hd, rfl⟩ := List.mem_map.1 hv
  rw [List.zipWith_self] at hd
  obtain ⟨a, -, rfl⟩ := List.mem_map.1 hd
  rw [hf, hg]

/-- With rounding the RBF covariance of two points lies between 0 and the rounded `sigma * sigma`, which it is for equal
points; in a matrix with nonnegative noise no entry exceeds the entry on the diagonal of its row. -/
theorem C99_rbf_range (A : FloatArith) (S : NpSum A) (E : NpExp A) (sigma l : ℝ) (hl : 1 / 2 ^ 500 ≤ l) :
    (∀ x y, 0 ≤ rbfF A S E sigma l x y ∧ rbfF A S E sigma l x y ≤ A.rnd (sigma * sigma)) ∧
    (∀ x, rbfF A S E sigma l x x = A.rnd (sigma * sigma)) ∧
    (∀ (n : Nat) (X : Fin n → List ℝ) (noise : ℝ), 0 ≤ noise → ∀ i j,
      0 ≤ rbfCovF A S E sigma l noise X i j ∧
      rbfCovF A S E sigma l noise X i j ≤ rbfCovF A S E sigma l noise X i i) := by
  have hden := two_l_l_pos A hl
  have hs : 0 ≤ A.rnd (sigma * sigma) := A.nonneg (mul_self_nonneg sigma)
  have h1 : ∀ x y, 0 ≤ rbfF A S E sigma l x y ∧ rbfF A S E sigma l x y ≤ A.rnd (sigma * sigma) := by
    intro x y
    have htop := rbf_top S x y
    unfold rbfF
    simp only
    generalize S.sum _ = top at *
    have he : E.exp (A.rnd (-top / A.rnd (A.rnd (2 * l) * l))) ≤ 1 := by
      rw [← E.zero]
      exact E.mono (A.nonpos (div_nonpos_of_nonpos_of_nonneg (by linarith) hden.le))
    refine ⟨A.nonneg (mul_nonneg hs (E.nonneg _)), ?_⟩
    have := A.mono (mul_le_mul_of_nonneg_left he hs)
    rwa [mul_one, A.idem] at this
  have h2 : ∀ x, rbfF A S E sigma l x x = A.rnd (sigma * sigma) := by
    intro x
    have h := (S.isSum _).zeros (zip_self (fun d => A.rnd (d * d)) x (fun a b => A.rnd (a - b))
      (fun a => by rw [sub_self, A.zero]) (by rw [mul_zero, A.zero]))
    unfold rbfF
    simp only
    rw [h, neg_zero, zero_div, A.zero, E.zero, mul_one, A.idem]
  refine ⟨h1, h2, fun n X noise hn i j => ?_⟩
  have hnz : ∀ b : Prop, ∀ _ : Decidable b, 0 ≤ A.rnd ((if b then 1 else 0) * noise) := by
    intro b _
    refine A.nonneg (mul_nonneg ?_ hn)
    split_ifs <;> norm_num
  unfold rbfCovF
  refine ⟨A.nonneg (add_nonneg (h1 _ _).1 (hnz _ _)), A.mono (add_le_add ?_ ?_)⟩
  · rw [h2]
    exact (h1 _ _).2
  · rw [if_pos rfl]
    split_ifs with h
    · exact le_rfl
    · rw [zero_mul, A.zero, one_mul]
      exact A.nonneg hn

/-- In one dimension the RBF covariance does not increase with the distance, also with rounding. -/
theorem C99_rbf_decay (A : FloatArith) (S : NpSum A) (E : NpExp A) (sigma l a b a' b' : ℝ) (hl : 1 / 2 ^ 500 ≤ l)
    (h : |a - b| ≤ |a' - b'|) : rbfF A S E sigma l [a'] [b'] ≤ rbfF A S E sigma l [a] [b] := by
  have hs : 0 ≤ A.rnd (sigma * sigma) := A.nonneg (mul_self_nonneg sigma)
  have hden := two_l_l_pos A hl
  have habs : ∀ t, |A.rnd t| = A.rnd |t| := by
    intro t
    rcases abs_cases t with ⟨e, h0⟩ | ⟨e, h0⟩
    · rw [e, abs_of_nonneg (A.nonneg h0)]
    · rw [e, A.neg, abs_of_nonpos (A.nonpos h0.le)]
  have hsq : A.rnd (A.rnd (a - b) * A.rnd (a - b)) ≤ A.rnd (A.rnd (a' - b') * A.rnd (a' - b')) := by
    refine A.mono ?_
    rw [← abs_mul_abs_self (A.rnd (a - b)), ← abs_mul_abs_self (A.rnd (a' - b')), habs, habs]
    have h0 := A.nonneg (abs_nonneg (a - b))
    exact mul_le_mul (A.mono h) (A.mono h) h0 (A.nonneg (abs_nonneg _))
  unfold rbfF
  simp only [List.zipWith_cons_cons, List.zipWith_nil_left, List.map_cons, List.map_nil]
  rw [(S.isSum _).singleton, (S.isSum _).singleton]
  refine A.mono (mul_le_mul_of_nonneg_left (E.mono (A.mono ?_)) hs)
  exact div_le_div_of_nonneg_right (by linarith) hden.le

/-- With rounding the periodic covariance lies between 0 and the rounded `sigma * sigma`, which it is for equal points. -/
theorem C99_periodic_range (A : FloatArith) (S : NpSum A) (E : NpExp A) (sin : ℝ → ℝ) (hsin : sin 0 = 0)
    (pi sigma l p : ℝ) (hl : 1 / 2 ^ 500 ≤ l) :
    (∀ x y, 0 ≤ perF A S E sin pi sigma l p x y ∧ perF A S E sin pi sigma l p x y ≤ A.rnd (sigma * sigma)) ∧
    (∀ x, perF A S E sin pi sigma l p x x = A.rnd (sigma * sigma)) := by
  have hden := l_l_pos A hl
  have hs : 0 ≤ A.rnd (sigma * sigma) := A.nonneg (mul_self_nonneg sigma)
  refine ⟨fun x y => ?_, fun x => ?_⟩
  · unfold perF
    simp only
    generalize sin _ = s
    have hneg : A.rnd (-2 * s) * s ≤ 0 := by
      rcases le_total 0 s with h | h
      · exact mul_nonpos_of_nonpos_of_nonneg (A.nonpos (by linarith)) h
      · exact mul_nonpos_of_nonneg_of_nonpos (A.nonneg (by linarith)) h
    have he : E.exp (A.rnd (A.rnd (A.rnd (-2 * s) * s) / A.rnd (l * l))) ≤ 1 := by
      rw [← E.zero]
      exact E.mono (A.nonpos (div_nonpos_of_nonpos_of_nonneg (A.nonpos hneg) hden.le))
    refine ⟨A.nonneg (mul_nonneg hs (E.nonneg _)), ?_⟩
    have := A.mono (mul_le_mul_of_nonneg_left he hs)
    rwa [mul_one, A.idem] at this
  · have h := (S.isSum _).zeros (zip_self id x (fun a b => |A.rnd (a - b)|)
      (fun a => by rw [sub_self, A.zero, abs_zero]) rfl)
    rw [List.map_id] at h
    unfold perF
    simp only
    rw [h, mul_zero, A.zero, zero_div, A.zero, hsin]
    simp only [mul_zero, A.zero, zero_div, E.zero, mul_one, A.idem]

/-! ## The matrix of the pairs -/

private lemma pairWF_eq {A : FloatArith} {n : Nat} (l : List ((Fin n × Fin n) × ℝ)) (a b : Fin n) :
    pairWF A l a b =
      (l.filter fun e => (a, b) = (e.1.2, e.1.2)).foldl (fun s e => A.rnd (s + -e.2))
        ((l.filter fun e => (a, b) = (e.1.2, e.1.1)).foldl (fun s e => A.rnd (s + e.2))
          ((l.filter fun e => (a, b) = (e.1.1, e.1.2)).foldl (fun s e => A.rnd (s + e.2))
            ((l.filter fun e => (a, b) = (e.1.1, e.1.1)).foldl (fun s e => A.rnd (s + -e.2)) 0))) := by
  unfold pairWF
  rw [addUpMatF_eq, addUpMatF_eq, addUpMatF_eq, addUpMatF_eq, List.filter_map, List.filter_map, List.filter_map,
    List.filter_map, List.foldl_map, List.foldl_map, List.foldl_map, List.foldl_map]
  rfl

private lemma pairWF_off {A : FloatArith} {n : Nat} (l : List ((Fin n × Fin n) × ℝ)) {a b : Fin n} (h : a ≠ b) :
    pairWF A l a b = (l.filter fun e => (b, a) = e.1).foldl (fun s e => A.rnd (s + e.2))
      ((l.filter fun e => (a, b) = e.1).foldl (fun s e => A.rnd (s + e.2)) 0) := by
  rw [pairWF_eq]
  have h1 : l.filter (fun e => (a, b) = (e.1.2, e.1.2)) = [] := by
    rw [List.filter_eq_nil_iff]
    intro e _
    simp only [Prod.mk.injEq, decide_eq_true_eq, not_and]
    rintro rfl rfl
    exact h rfl
  have h2 : l.filter (fun e => (a, b) = (e.1.1, e.1.1)) = [] := by
    rw [List.filter_eq_nil_iff]
    intro e _
    simp only [Prod.mk.injEq, decide_eq_true_eq, not_and]
    rintro rfl rfl
    exact h rfl
  have h3 : ∀ e : (Fin n × Fin n) × ℝ, ((a, b) = (e.1.2, e.1.1)) = ((b, a) = e.1) := by
    rintro ⟨⟨u, v⟩, d⟩
    simp only [Prod.mk.injEq, eq_iff_iff]
    exact and_comm
  rw [h1, h2]
  simp only [h3, List.foldl_nil, Prod.mk.eta]

/-- With rounding the matrix `W` of the pairs is exactly symmetric if no two points are compared in both orders. -/
theorem C99_pairs_symmetric (A : FloatArith) {n : Nat} (l : List ((Fin n × Fin n) × ℝ))
    (h : ∀ e ∈ l, ∀ e' ∈ l, e.1 = (e'.1.2, e'.1.1) → e.1.1 = e.1.2) (a b : Fin n) :
    pairWF A l a b = pairWF A l b a := by
  by_cases hab : a = b
  · rw [hab]
  rw [pairWF_off l hab, pairWF_off l (Ne.symm hab)]
  by_cases h1 : l.filter (fun e => (a, b) = e.1) = []
  · rw [h1, List.foldl_nil, List.foldl_nil]
  · have h2 : l.filter (fun e => (b, a) = e.1) = [] := by
      obtain ⟨e, he⟩ := List.exists_mem_of_ne_nil _ h1
      simp only [List.mem_filter, decide_eq_true_eq] at he
      rw [List.filter_eq_nil_iff]
      intro e' he' h'
      simp only [decide_eq_true_eq] at h'
      have := h e he.1 e' he' (by rw [← he.2, ← h'])
      rw [← he.2] at this
      exact hab this
    rw [h2, List.foldl_nil, List.foldl_nil]

private lemma fold_nonpos {A : FloatArith} {α : Type} (l : List α) (g : α → ℝ) (hg : ∀ e ∈ l, g e ≤ 0) {s : ℝ} (hs : s ≤ 0) :
    l.foldl (fun s e => A.rnd (s + g e)) s ≤ 0 := by
  induction l generalizing s with
  | nil => exact hs
  | cons e l ih =>
    exact ih (fun e' h' => hg e' (by simp [h'])) (A.nonpos (by linarith [hg e (by simp)]))

private lemma fold_nonneg {A : FloatArith} {α : Type} (l : List α) (g : α → ℝ) (hg : ∀ e ∈ l, 0 ≤ g e) {s : ℝ} (hs : 0 ≤ s) :
    0 ≤ l.foldl (fun s e => A.rnd (s + g e)) s := by
  induction l generalizing s with
  | nil => exact hs
  | cons e l ih =>
    exact ih (fun e' h' => hg e' (by simp [h'])) (A.nonneg (by linarith [hg e (by simp)]))

/-- With rounding: if the second derivatives are at most 0 and no point is compared with itself, the diagonal of `W` is
nonnegative and the other entries are at most 0. -/
theorem C99_pairs_signs (A : FloatArith) {n : Nat} (l : List ((Fin n × Fin n) × ℝ)) (hd : ∀ e ∈ l, e.2 ≤ 0)
    (hne : ∀ e ∈ l, e.1.1 ≠ e.1.2) (a b : Fin n) :
    0 ≤ pairWF A l a a ∧ (a ≠ b → pairWF A l a b ≤ 0) := by
  refine ⟨?_, fun hab => ?_⟩
  · rw [pairWF_eq]
    have h2 : l.filter (fun e => (a, a) = (e.1.2, e.1.1)) = [] := by
      rw [List.filter_eq_nil_iff]
      intro e he
      simp only [Prod.mk.injEq, decide_eq_true_eq, not_and]
      rintro rfl h
      exact hne e he h.symm
    have h3 : l.filter (fun e => (a, a) = (e.1.1, e.1.2)) = [] := by
      rw [List.filter_eq_nil_iff]
      intro e he
      simp only [Prod.mk.injEq, decide_eq_true_eq, not_and]
      rintro rfl h
      exact hne e he h
    rw [h2, h3, List.foldl_nil, List.foldl_nil]
    refine fold_nonneg _ (fun e : (Fin n × Fin n) × ℝ => -e.2) (fun e he => ?_)
      (fold_nonneg _ (fun e : (Fin n × Fin n) × ℝ => -e.2) (fun e he => ?_) le_rfl)
    · linarith [hd e (List.mem_of_mem_filter he)]
    · linarith [hd e (List.mem_of_mem_filter he)]
  · rw [pairWF_off l hab]
    exact fold_nonpos _ (fun e => e.2) (fun e he => hd e (List.mem_of_mem_filter he))
      (fold_nonpos _ (fun e => e.2) (fun e he => hd e (List.mem_of_mem_filter he)) le_rfl)

private lemma r_one : round64 1 = 1 := binary64.one

private lemma r_tiny : round64 (2 ^ (-53 : ℤ)) = 2 ^ (-53 : ℤ) := by
  have := round64_absorb (k := -53) (by norm_num) (by norm_num) (t := 0) le_rfl (by positivity)
  rwa [add_zero] at this

private lemma r_tiny2 : round64 (2 ^ (-52 : ℤ)) = 2 ^ (-52 : ℤ) := by
  have := round64_absorb (k := -52) (by norm_num) (by norm_num) (t := 0) le_rfl (by positivity)
  rwa [add_zero] at this

private lemma r_absorb : round64 (1 + 2 ^ (-53 : ℤ)) = 1 := by
  have := round64_absorb (k := 0) (by norm_num) (by norm_num) (t := 2 ^ (-53 : ℤ)) (by positivity) (by norm_num)
  rwa [zpow_zero] at this

private lemma r_next : round64 (2 ^ (-52 : ℤ) + 1) = 2 ^ (-52 : ℤ) + 1 := by
  have h := round64_dyadic (k := 2 ^ 52 + 1) (by norm_num) (j := -52) (by norm_num) (by
    refine le_trans ?_ big_le_maxFinite
    calc ((2 ^ 52 + 1 : ℕ) : ℝ) * 2 ^ (-52 : ℤ) ≤ 2 ^ 1 := by norm_num
      _ ≤ 2 ^ 1023 := pow_le_pow_right₀ (by norm_num) (by norm_num))
  have e : ((2 ^ 52 + 1 : ℕ) : ℝ) * 2 ^ (-52 : ℤ) = 2 ^ (-52 : ℤ) + 1 := by norm_num
  rwa [e] at h

/-- In binary64 `W` need not be symmetric when two points are compared in both orders: the additions happen in different
orders. -/
theorem C99_pairs_symmetric_false :
    ∃ l : List ((Fin 2 × Fin 2) × ℝ), (∀ e ∈ l, e.2 ≤ 0) ∧ (∀ e ∈ l, e.1.1 ≠ e.1.2) ∧
      pairWF binary64 l 0 1 ≠ pairWF binary64 l 1 0 := by
  refine ⟨[((0, 1), -1), ((1, 0), -2 ^ (-53 : ℤ)), ((1, 0), -2 ^ (-53 : ℤ))], ?_, by simp, ?_⟩
  · intro e he
    simp only [List.mem_cons, List.not_mem_nil, or_false] at he
    rcases he with rfl | rfl | rfl <;> simp <;> positivity
  · rw [pairWF_off _ (by decide), pairWF_off _ (by decide)]
    have f1 : ([((0, 1), -1), ((1, 0), -2 ^ (-53 : ℤ)), ((1, 0), -2 ^ (-53 : ℤ))] : List ((Fin 2 × Fin 2) × ℝ)).filter
        (fun e => ((0 : Fin 2), (1 : Fin 2)) = e.1) = [((0, 1), -1)] := by
      simp [List.filter_cons]
    have f2 : ([((0, 1), -1), ((1, 0), -2 ^ (-53 : ℤ)), ((1, 0), -2 ^ (-53 : ℤ))] : List ((Fin 2 × Fin 2) × ℝ)).filter
        (fun e => ((1 : Fin 2), (0 : Fin 2)) = e.1) = [((1, 0), -2 ^ (-53 : ℤ)), ((1, 0), -2 ^ (-53 : ℤ))] := by
      simp [List.filter_cons]
    rw [f1, f2]
    simp only [List.foldl_cons, List.foldl_nil, zero_add]
    have e1 : binary64.rnd (-1) = -1 := by rw [binary64.neg, binary64.one]
    have e2 : binary64.rnd (-1 + -2 ^ (-53 : ℤ)) = -1 := by
      rw [← neg_add, binary64.neg]
      exact congrArg Neg.neg r_absorb
    have e3 : binary64.rnd (-2 ^ (-53 : ℤ)) = -2 ^ (-53 : ℤ) := by
      rw [binary64.neg]
      exact congrArg Neg.neg r_tiny
    have e4 : binary64.rnd (-2 ^ (-53 : ℤ) + -2 ^ (-53 : ℤ)) = -2 ^ (-52 : ℤ) := by
      rw [← neg_add, binary64.neg, show (2 : ℝ) ^ (-53 : ℤ) + 2 ^ (-53 : ℤ) = 2 ^ (-52 : ℤ) by norm_num]
      exact congrArg Neg.neg r_tiny2
    have e5 : binary64.rnd (-2 ^ (-52 : ℤ) + -1) = -(2 ^ (-52 : ℤ) + 1) := by
      rw [← neg_add, binary64.neg]
      exact congrArg Neg.neg r_next
    rw [e1, e2, e2, e3, e4, e5]
    norm_num

example : (1 : ℝ) / 2 ^ 500 ≤ 1 := by
  rw [div_le_one (by positivity)]
  exact one_le_pow₀ (by norm_num)

/-- Two pairs that satisfy the hypotheses of `C99_pairs_symmetric` and `C99_pairs_signs`. -/
example : let l : List ((Fin 3 × Fin 3) × ℝ) := [((0, 1), -1 / 2), ((2, 1), -1 / 3)]
    (∀ e ∈ l, ∀ e' ∈ l, e.1 = (e'.1.2, e'.1.1) → e.1.1 = e.1.2) ∧ (∀ e ∈ l, e.2 ≤ 0) ∧ ∀ e ∈ l, e.1.1 ≠ e.1.2 := by
  refine ⟨?_, ?_, ?_⟩
  · intro e he e' he'
    simp only [List.mem_cons, List.not_mem_nil, or_false] at he he'
    rcases he with rfl | rfl <;> rcases he' with rfl | rfl <;> simp
  · intro e he
    simp only [List.mem_cons, List.not_mem_nil, or_false] at he
    rcases he with rfl | rfl <;> norm_num
  · intro e he
    simp only [List.mem_cons, List.not_mem_nil, or_false] at he
    rcases he with rfl | rfl <;> decide

end Lop.Props
