import Verif.Proofs.Alignment
import Verif.Proofs.Basic
import Mathlib.Tactic.NormNum
import Mathlib.Tactic.FinCases
import Mathlib.Data.Fin.VecNotation

/-! # C75: the alignment functions are similarity measures -/

namespace Lop.Props

open Lop Spec Finset
open scoped RealInnerProductSpace

noncomputable section

variable {M d s : Nat}

theorem isSoftmax_unique {x p : Fin d → ℝ} (h : IsSoftmax x p) : p = softmaxRow x := by
  funext j
  have hp : ∀ k, p k = p j / Real.exp (x j) * Real.exp (x k) := by
    intro k
    have h1 := h.ratio k j
    have h2 : p k / p j = Real.exp (x k - x j) := by
      rw [← h1, ← Real.log_div (h.pos k).ne' (h.pos j).ne', Real.exp_log (div_pos (h.pos k) (h.pos j))]
    rw [Real.exp_sub] at h2
    have := (h.pos j).ne'
    have := (Real.exp_pos (x j)).ne'
    field_simp at h2 ⊢
    linarith
  have ht := h.total
  rw [sum_congr rfl fun k _ => hp k, ← mul_sum] at ht
  rw [softmaxRow]
  have := (sum_exp_pos x j).ne'
  have := (Real.exp_pos (x j)).ne'
  field_simp at ht ⊢
  linarith

theorem softmaxRow_isSoftmax (hd : 0 < d) (x : Fin d → ℝ) : IsSoftmax x (softmaxRow x) := by
  refine ⟨softmaxRow_nonneg x, softmaxRow_sum hd x, fun j k => ?_⟩
  rw [softmaxRow, softmaxRow, Real.log_div (Real.exp_pos _).ne' (sum_exp_pos x j).ne',
    Real.log_div (Real.exp_pos _).ne' (sum_exp_pos x j).ne', Real.log_exp, Real.log_exp]
  ring

/-- C75 (`rho`): with at least two representative points the alignment is minus the Euclidean distance of
the softmax distributions: a pseudometric below `√2` that vanishes exactly for utilities that differ by a
constant. -/
theorem C75_rho (hd : 2 ≤ d) (σ : ℝ) (X : Fin M → Fin d → ℝ) (Qs : List (Fin s → Fin d)) :
    ∃ D : Fin M → Fin M → ℝ, (∀ i k, alignment σ (some .rho) X Qs i k = .ok (some (some (-D i k)))) ∧
      IsPseudometric D ∧ (∀ i k, D i k < √2) ∧
      (∀ i k, D i k = 0 ↔ ∃ c : ℝ, ∀ j, X k j = X i j + c) ∧
      ∀ i k p q, IsSoftmax (X i) p → IsSoftmax (X k) q → D i k ^ 2 = ∑ j, (p j - q j) ^ 2 := by
  refine ⟨fun i k => ‖sRow (X i) - sRow (X k)‖, ?_, ⟨?_, ?_, ?_, ?_⟩, ?_, ?_, ?_⟩
  · intro i k
    rw [alignment, if_neg (by omega), alignRho_eq]
  · intro i k
    exact norm_nonneg _
  · intro i
    simp
  · intro i k
    exact norm_sub_rev _ _
  · intro i k l
    exact norm_sub_le_norm_sub_add_norm_sub _ _ _
  · intro i k
    exact softmax_dist_lt (by omega) _ _
  · intro i k
    rw [norm_eq_zero, sub_eq_zero, ← softmaxRow_eq_iff (by omega)]
    constructor
    · intro h
      exact congrArg WithLp.ofLp h
    · intro h
      rw [sRow, sRow, h]
  · intro i k p q hp hq
    dsimp only
    rw [isSoftmax_unique hp, isSoftmax_unique hq, EuclideanSpace.norm_eq,
      Real.sq_sqrt (sum_nonneg fun _ _ => sq_nonneg _)]
    apply sum_congr rfl
    intro j _
    simp [sRow, Real.norm_eq_abs, sq_abs]

/-- Beside C75_rho: every row has a softmax distribution, so its last clause is about something. -/
example (x : Fin 3 → ℝ) : ∃ p, IsSoftmax x p := ⟨_, softmaxRow_isSoftmax (by norm_num) x⟩

/-- Beside C75_rho: two utilities that differ by a constant are perfectly aligned. -/
example (σ : ℝ) : alignment (M := 2) (s := 2) σ (some .rho) ![![0, 1], ![5, 6]] [] 0 1 =
    .ok (some (some 0)) := by
  obtain ⟨D, h1, -, -, h2, -⟩ := C75_rho (M := 2) (s := 2) (le_refl 2) σ ![![0, 1], ![5, 6]] []
  have h : D 0 1 = 0 := (h2 0 1).2 ⟨5, fun j => by fin_cases j <;> norm_num⟩
  rw [h1, h, neg_zero]

theorem pairSum_eq (x y : Fin d → ℝ) :
    ∑ j, ∑ k, (x j - x k) * (y j - y k) = 2 * d * ⟪cRow x, cRow y⟫ := by
  rw [cRow_inner]
  rcases Nat.eq_zero_or_pos d with rfl | hd
  · simp
  have hd' : (d : ℝ) ≠ 0 := by exact_mod_cast hd.ne'
  have e : ∀ j, ∑ k, (x j - x k) * (y j - y k) =
      d * (x j * y j) + ∑ k, x k * y k - x j * ∑ k, y k - (∑ k, x k) * y j := by
    intro j
    have : ∀ k, (x j - x k) * (y j - y k) = x j * y j + x k * y k - x j * y k - x k * y j := by
      intro k; ring
    simp only [this, sum_add_distrib, sum_sub_distrib, ← mul_sum, ← sum_mul, sum_const, card_univ,
      Fintype.card_fin, nsmul_eq_mul]
    ring
  have e2 : ∀ j, (x j - (∑ k, x k) / d) * (y j - (∑ k, y k) / d) =
      x j * y j - x j * ((∑ k, y k) / d) - (∑ k, x k) / d * y j + (∑ k, x k) / d * ((∑ k, y k) / d) := by
    intro j; ring
  simp only [e, e2, sum_add_distrib, sum_sub_distrib, ← mul_sum, ← sum_mul, sum_const, card_univ,
    Fintype.card_fin, nsmul_eq_mul]
  generalize (∑ j, x j * y j) = a
  generalize (∑ j, x j) = b
  generalize (∑ j, y j) = c
  field_simp
  ring

theorem isPearson_uRow {x y : Fin d → ℝ} (hx : NonConstant x) (hy : NonConstant y) :
    IsPearson x y ⟪uRow x, uRow y⟫ := by
  have hx0 : ‖cRow x‖ ≠ 0 := norm_ne_zero_iff.2 fun e => (cRow_eq_zero x).1 e hx
  have hy0 : ‖cRow y‖ ≠ 0 := norm_ne_zero_iff.2 fun e => (cRow_eq_zero y).1 e hy
  have hs : ∀ x : Fin d → ℝ, √(∑ j, ∑ k, (x j - x k) ^ 2) = √(2 * d) * ‖cRow x‖ := by
    intro x
    simp only [sq (_ - _)]
    rw [pairSum_eq, real_inner_self_eq_norm_sq, Real.sqrt_mul (by positivity),
      Real.sqrt_sq (norm_nonneg _)]
  have hq : √(2 * d : ℝ) * √(2 * d) = 2 * d := Real.mul_self_sqrt (by positivity)
  rw [IsPearson, hs, hs, pairSum_eq, uRow, uRow, real_inner_smul_left, real_inner_smul_right]
  generalize √(2 * d : ℝ) = r at hq
  rw [← hq]
  field_simp

/-- C75 (`epic`): when no utility is constant on the representative points, the alignment is minus the
Pearson distance `√((1-r)/2)`: a pseudometric with values in `[0, 1]`, zero exactly for utilities that are
positive affine transforms of each other and one exactly for negative ones. -/
theorem C75_epic_partial (hd : 2 ≤ d) (σ : ℝ) (X : Fin M → Fin d → ℝ) (Qs : List (Fin s → Fin d))
    (hX : ∀ i, NonConstant (X i)) :
    ∃ D : Fin M → Fin M → ℝ, (∀ i k, alignment σ (some .epic) X Qs i k = .ok (some (some (-D i k)))) ∧
      IsPseudometric D ∧ (∀ i k, D i k ≤ 1) ∧
      (∀ i k, D i k = 0 ↔ ∃ a c : ℝ, 0 < a ∧ ∀ j, X k j = a * X i j + c) ∧
      (∀ i k, D i k = 1 ↔ ∃ a c : ℝ, 0 < a ∧ ∀ j, X k j = -(a * X i j) + c) ∧
      ∀ i k, IsPearson (X i) (X k) (1 - 2 * D i k ^ 2) := by
  have key : ∀ i k, (‖uRow (X i) - uRow (X k)‖ / 2) ^ 2 = (1 - ⟪uRow (X i), uRow (X k)⟫) / 2 := by
    intro i k
    rw [div_pow, norm_sub_uRow (hX i) (hX k)]
    ring
  refine ⟨fun i k => ‖uRow (X i) - uRow (X k)‖ / 2, ?_, ⟨?_, ?_, ?_, ?_⟩, ?_, ?_, ?_, ?_⟩
  · intro i k
    rw [alignment, if_neg (by omega), epicOf_eq hd (hX i) (hX k)]
  · intro i k
    positivity
  · intro i
    simp
  · intro i k
    rw [norm_sub_rev]
  · intro i k l
    have := norm_sub_le_norm_sub_add_norm_sub (uRow (X i)) (uRow (X k)) (uRow (X l))
    linarith
  · intro i k
    have := norm_sub_le (uRow (X i)) (uRow (X k))
    rw [norm_uRow (hX i), norm_uRow (hX k)] at this
    dsimp only
    linarith
  · intro i k
    rw [← uRow_eq_iff (hX i) (hX k)]
    simp [sub_eq_zero]
  · intro i k
    rw [← uRow_eq_neg_iff (hX i) (hX k), ← inner_uRow_eq_neg_one (hX i) (hX k)]
    have h := key i k
    dsimp only
    constructor
    · intro e
      rw [e] at h
      linarith
    · intro e
      rw [e] at h
      have h0 : 0 ≤ ‖uRow (X i) - uRow (X k)‖ / 2 := by positivity
      nlinarith
  · intro i k
    dsimp only
    rw [key]
    convert isPearson_uRow (hX i) (hX k) using 1
    ring

/-- Beside C75_epic: three different non-constant utilities. -/
example : ∀ i : Fin 3, NonConstant ((![![0, 1], ![3, 2], ![4, 9]] : Fin 3 → Fin 2 → ℝ) i) := by
  intro i
  refine ⟨0, 1, ?_⟩
  fin_cases i <;> norm_num

/-- C75 (`epic` and `spearman`), the missing case: as soon as a utility is constant on the representative
points its whole row and column are `nan`, its alignment with itself included. -/
theorem C75_constant_false (hd : 2 ≤ d) (σ : ℝ) (X : Fin M → Fin d → ℝ) (Qs : List (Fin s → Fin d))
    (i : Fin M) (hi : ∀ j k, X i j = X i k) (kind : AlignKind) (hk : kind = .epic ∨ kind = .spearman)
    (k : Fin M) :
    alignment σ (some kind) X Qs i k = .ok (some none) ∧
      alignment σ (some kind) X Qs k i = .ok (some none) := by
  have hn : ¬ NonConstant (X i) := fun ⟨a, b, h⟩ => h (hi a b)
  have hr : ¬ NonConstant (rankRow (X i)) := by rwa [nonConstant_rankRow]
  rcases hk with rfl | rfl <;> constructor <;> rw [alignment, if_neg (by omega)]
  · simp only [epicOf, npCorr_none hd (Or.inl hn), Option.map_none]
  · simp only [epicOf, npCorr_none hd (Or.inr hn), Option.map_none]
  · simp only [spearmanOf, npCorr_none hd (Or.inl hr)]
  · simp only [spearmanOf, npCorr_none hd (Or.inr hr)]

/-- Beside C75_constant_false: a constant utility among others. -/
example : ∀ j k, (![![0, 1], ![2, 2]] : Fin 2 → Fin 2 → ℝ) 1 j = ![![0, 1], ![2, 2]] 1 k := by
  intro j k
  fin_cases j <;> fin_cases k <;> norm_num

theorem rankRow_eq_avgRank (x : Fin d → ℝ) : rankRow x = avgRank x := by
  funext j
  have e : ∀ k, (if x k < x j then (1 : ℝ) else if x k = x j then 1 / 2 else 0) =
      (if x k < x j then 1 else 0) + 1 / 2 * (if x k = x j then 1 else 0) := by
    intro k
    by_cases h1 : x k < x j
    · simp [h1, h1.ne]
    · by_cases h2 : x k = x j <;> simp [h1, h2]
  rw [rankRow, avgRank]
  simp only [e, sum_add_distrib, ← mul_sum, sum_boole]
  ring

/-- C75 (`spearman`): when no utility is constant, the alignment is the Pearson correlation of the average
ranks: symmetric, one on the diagonal, in `[-1, 1]`, one exactly for utilities with the same weak order and
minus one exactly for opposite orders. -/
theorem C75_spearman_partial (hd : 2 ≤ d) (σ : ℝ) (X : Fin M → Fin d → ℝ) (Qs : List (Fin s → Fin d))
    (hX : ∀ i, NonConstant (X i)) :
    ∃ R : Fin M → Fin M → ℝ, (∀ i k, alignment σ (some .spearman) X Qs i k = .ok (some (some (R i k)))) ∧
      (∀ i, R i i = 1) ∧ (∀ i k, R i k = R k i) ∧ (∀ i k, -1 ≤ R i k ∧ R i k ≤ 1) ∧
      (∀ i k, R i k = 1 ↔ SameOrder (X i) (X k)) ∧
      (∀ i k, R i k = -1 ↔ OppositeOrder (X i) (X k)) ∧
      ∀ i k, IsPearson (avgRank (X i)) (avgRank (X k)) (R i k) := by
  have hR : ∀ i, NonConstant (rankRow (X i)) := fun i => (nonConstant_rankRow _).2 (hX i)
  refine ⟨fun i k => ⟪uRow (rankRow (X i)), uRow (rankRow (X k))⟫, ?_, ?_, ?_, ?_, ?_, ?_, ?_⟩
  · intro i k
    rw [alignment, if_neg (by omega), spearmanOf, npCorr_eq hd (hR i) (hR k)]
  · intro i
    exact (inner_uRow_eq_one (hR i) (hR i)).2 rfl
  · intro i k
    exact real_inner_comm _ _
  · intro i k
    exact inner_uRow_le _ _ (hR i) (hR k)
  · intro i k
    rw [inner_uRow_eq_one (hR i) (hR k), uRow_eq_iff (hR i) (hR k), sameOrder_iff_affine]
  · intro i k
    rw [inner_uRow_eq_neg_one (hR i) (hR k), uRow_eq_neg_iff (hR i) (hR k), oppositeOrder_iff_affine]
  · intro i k
    rw [← rankRow_eq_avgRank, ← rankRow_eq_avgRank]
    exact isPearson_uRow (hR i) (hR k)

/-- Beside C75_spearman: a strictly monotone but not affine transform is perfectly aligned. -/
example (σ : ℝ) : alignment (M := 2) (s := 2) σ (some .spearman) ![![0, 1, 2], ![0, 1, 100]] [] 0 1 =
    .ok (some (some 1)) := by
  have hX : ∀ i : Fin 2, NonConstant ((![![0, 1, 2], ![0, 1, 100]] : Fin 2 → Fin 3 → ℝ) i) := by
    intro i
    refine ⟨0, 1, ?_⟩
    fin_cases i <;> norm_num
  obtain ⟨R, h1, -, -, -, h2, -⟩ := C75_spearman_partial (s := 2) (by norm_num) σ
    ![![0, 1, 2], ![0, 1, 100]] [] hX
  rw [h1, (h2 0 1).2]
  intro j k
  fin_cases j <;> fin_cases k <;> norm_num

/-- C75 (fewer than two points): the matrix is zero for every alignment function, so a utility is not
aligned with itself (`spearman` and `one` promise one on the diagonal); an unknown function gives `None`
only for two points or more. -/
theorem C75_small (σ : ℝ) (kind : Option AlignKind) (X : Fin M → Fin d → ℝ) (Qs : List (Fin s → Fin d))
    (i k : Fin M) :
    (d < 2 → alignment σ kind X Qs i k = .ok (some (some 0))) ∧
      (2 ≤ d → alignment σ none X Qs i k = .ok none ∧
        alignment σ (some .one) X Qs i k = .ok (some (some 1))) := by
  constructor
  · intro h
    simp [alignment, h]
  · intro h
    have h' : ¬ d < 2 := by omega
    constructor <;> simp [alignment, h']

/-- C75 (`alignment_between`): for sample sets of equal shape, `epic`, `spearman` and `one` give the off
diagonal block of the alignment matrix of all samples together; in particular a set compared with itself
gives its alignment matrix, and exchanging the sets transposes the result. -/
theorem C75_between (hd : 2 ≤ d) (σ : ℝ) (kind : AlignKind)
    (hk : kind = .epic ∨ kind = .spearman ∨ kind = .one)
    (X Y : Fin M → Fin d → ℝ) (Qs : List (Fin s → Fin d)) (i k : Fin M) :
    alignmentBetween (some kind) X Y i k =
        alignment σ (some kind) (Fin.append X Y) Qs (Fin.castAdd M i) (Fin.natAdd M k) ∧
      alignmentBetween (some kind) X X i k = alignment σ (some kind) X Qs i k ∧
      alignmentBetween (some kind) X Y i k = alignmentBetween (some kind) Y X k i := by
  have corr_comm : ∀ x y : Fin d → ℝ, npCorr x y = npCorr y x := by
    intro x y
    by_cases hx : NonConstant x
    · by_cases hy : NonConstant y
      · rw [npCorr_eq hd hx hy, npCorr_eq hd hy hx, real_inner_comm]
      · rw [npCorr_none hd (Or.inr hy), npCorr_none hd (Or.inl hy)]
    · rw [npCorr_none hd (Or.inl hx), npCorr_none hd (Or.inr hx)]
  have hd2 : ¬ d < 2 := by omega
  rcases hk with rfl | rfl | rfl
  · refine ⟨?_, ?_, ?_⟩
    · simp only [alignmentBetween, alignment, hd2, if_false, Fin.append_left, Fin.append_right,
        and_self, dite_true]
      rfl
    · simp [alignmentBetween, alignment, hd2]
    · simp [alignmentBetween, hd2, epicOf, corr_comm (X i)]
  · refine ⟨?_, ?_, ?_⟩
    · simp only [alignmentBetween, alignment, hd2, if_false, Fin.append_left, Fin.append_right,
        and_self, dite_true]
      rfl
    · simp [alignmentBetween, alignment, hd2]
    · simp [alignmentBetween, hd2, spearmanOf, corr_comm (rankRow (X i))]
  · simp [alignmentBetween, alignment, hd2]

/-- C75 (`alignment_between`, other inputs): different shapes raise before anything else; equal shapes with
fewer than two points give zero; `rho` and `loglikelihood` are not implemented. -/
theorem C75_between_rest {M' d' : Nat} (kind : Option AlignKind) (X : Fin M → Fin d → ℝ)
    (Y : Fin M' → Fin d' → ℝ) (i : Fin M) (k : Fin M') :
    (¬ (M = M' ∧ d = d') → alignmentBetween kind X Y i k = .error .exception) ∧
    (M = M' → d = d' → d < 2 → alignmentBetween kind X Y i k = .ok (some (some 0))) ∧
    (M = M' → d = d' → 2 ≤ d → kind = some .rho ∨ kind = some .loglikelihood →
      alignmentBetween kind X Y i k = .error .notImplemented) ∧
    (M = M' → d = d' → 2 ≤ d → kind = none → alignmentBetween kind X Y i k = .ok none) := by
  refine ⟨?_, ?_, ?_, ?_⟩
  · intro h
    rw [alignmentBetween, dif_neg h]
  · intro h1 h2 h
    rw [alignmentBetween, dif_pos ⟨h1, h2⟩]
    simp [h]
  · intro h1 h2 h hk
    rw [alignmentBetween, dif_pos ⟨h1, h2⟩]
    rcases hk with rfl | rfl <;> simp [not_lt.2 h]
  · rintro h1 h2 h rfl
    rw [alignmentBetween, dif_pos ⟨h1, h2⟩]
    simp [not_lt.2 h]

/-! ## `loglikelihood` -/

theorem repPQ_eq (σ : ℝ) (x : Fin d → ℝ) (Q : Fin s → Fin d) (q : Fin s) :
    repPQ σ x Q q = ∏ j ∈ univ.erase q, prefAllPairs σ x (Q q) (Q j) := by
  classical
  rw [repPQ, ← List.prod_toFinset]
  · apply prod_congr _ fun _ _ => rfl
    ext j
    rw [List.mem_toFinset, List.mem_filter, mem_erase]
    simp only [List.mem_finRange, mem_univ, true_and, and_true, decide_eq_true_eq]
    exact ne_comm
  · exact (List.nodup_finRange s).filter _

theorem prefAllPairs_pos (σ : ℝ) (x : Fin d → ℝ) (i j : Fin d) : 0 < prefAllPairs σ x i j :=
  stdNormCdf_pos _

theorem repP_eq (σ : ℝ) (x : Fin d → ℝ) (Q : Fin s → Fin d) (q : Fin s) :
    repP σ x Q q = choiceProb (fun a b => prefAllPairs σ x (Q a) (Q b)) q := by
  rw [repP, choiceProb]
  simp only [repPQ_eq]

theorem repP_pos_le (σ : ℝ) (x : Fin d → ℝ) (Q : Fin s → Fin d) (q : Fin s) :
    0 < repP σ x Q q ∧ repP σ x Q q ≤ 1 := by
  have hp : ∀ q, 0 < repPQ σ x Q q := by
    intro q
    rw [repPQ_eq]
    exact prod_pos fun _ _ => prefAllPairs_pos ..
  have hs : 0 < ∑ q', repPQ σ x Q q' := sum_pos (fun k _ => hp k) ⟨q, mem_univ q⟩
  refine ⟨div_pos (hp q) hs, ?_⟩
  rw [repP, div_le_one hs]
  exact single_le_sum (f := repPQ σ x Q) (fun k _ => (hp k).le) (mem_univ q)

theorem firstMax_unique {v : Fin s → ℝ} {a b : Fin s} (ha : FirstMax v a) (hb : FirstMax v b) : a = b := by
  rcases lt_trichotomy a b with h | h | h
  · exact absurd (hb.2 a h) (not_lt.2 (ha.1 b))
  · exact h
  · exact absurd (ha.2 b h) (not_lt.2 (hb.1 a))

theorem repBest_ok (hs : 0 < s) (x : Fin d → ℝ) (Q : Fin s → Fin d) :
    ∃ b : Fin s, repBest x Q = .ok b.1 ∧ FirstMax (fun q => x (Q q)) b := by
  have hne : ((List.finRange s).map fun i => x (Q i)) ≠ [] := by
    intro h
    have := congrArg List.length h
    simp at this
    omega
  obtain ⟨b, hb⟩ := npArgmax_isOk hne
  obtain ⟨m, h1, h2, h3⟩ := npArgmax_spec hb
  have hbs : b < s := by
    have := (List.getElem?_eq_some_iff.1 h1).1
    simpa using this
  have hm : m = x (Q ⟨b, hbs⟩) := by
    rw [List.getElem?_map] at h1
    simpa [hbs] using h1.symm
  refine ⟨⟨b, hbs⟩, hb, ?_, ?_⟩
  · intro j
    change _ ≤ x (Q ⟨b, hbs⟩)
    rw [← hm]
    exact h2 _ (List.mem_map.2 ⟨j, List.mem_finRange j, rfl⟩)
  · intro j hj
    change _ < x (Q ⟨b, hbs⟩)
    rw [← hm]
    refine h3 j.1 _ hj ?_
    rw [List.getElem?_map]
    simp

theorem repTerm_ok (hs : 0 < s) (σ : ℝ) (x y : Fin d → ℝ) (Q : Fin s → Fin d) {b : Fin s}
    (hb : FirstMax (fun q => y (Q q)) b) :
    repTerm σ x y Q = .ok (Real.log (choiceProb (fun a c => prefAllPairs σ x (Q a) (Q c)) b)) := by
  obtain ⟨b', h1, h2⟩ := repBest_ok hs y Q
  have := firstMax_unique hb h2
  subst this
  rw [repTerm, h1]
  have : ((List.finRange s).map fun i => Real.log (repP σ x Q i))[b.1]? =
      some (Real.log (repP σ x Q b)) := by
    rw [List.getElem?_map]
    simp
  simp only [Bind.bind, Except.bind, this, pure, Except.pure]
  rw [repP_eq]

theorem repG_ok (hs : 0 < s) (σ : ℝ) (x y : Fin d → ℝ) (best : (Fin s → Fin d) → Fin s)
    (hb : ∀ Q, FirstMax (fun q => y (Q q)) (best Q)) (Qs : List (Fin s → Fin d)) :
    repG σ x y Qs =
      .ok (Qs.map fun Q => Real.log (choiceProb (fun a c => prefAllPairs σ x (Q a) (Q c)) (best Q))).sum := by
  have : Qs.mapM (repTerm σ x y) = .ok (Qs.map fun Q =>
      Real.log (choiceProb (fun a c => prefAllPairs σ x (Q a) (Q c)) (best Q))) := by
    induction Qs with
    | nil => rfl
    | cons Q Qs ih =>
      rw [List.mapM_cons, repTerm_ok hs σ x y Q (hb Q), ih]
      rfl
  rw [repG, this]
  rfl

/-- C75 (`loglikelihood`): with at least two points and non-empty queries the alignment of two utilities is
the log probability that each answers all representative queries the way that is best for the other; it is
symmetric and never positive. -/
theorem C75_loglik (hd : 2 ≤ d) (hs : 0 < s) (σ : ℝ) (X : Fin M → Fin d → ℝ) (Qs : List (Fin s → Fin d)) :
    ∃ G : Fin M → Fin M → ℝ,
      (∀ i k, alignment σ (some .loglikelihood) X Qs i k = .ok (some (some (G i k + G k i)))) ∧
      (∀ i k, G i k ≤ 0) ∧
      ∀ i k (best : (Fin s → Fin d) → Fin s), (∀ Q, FirstMax (fun q => X k (Q q)) (best Q)) →
        G i k = (Qs.map fun Q =>
          Real.log (choiceProb (fun a c => prefAllPairs σ (X i) (Q a) (Q c)) (best Q))).sum := by
  choose best hb using fun (x : Fin d → ℝ) (Q : Fin s → Fin d) =>
    (repBest_ok hs x Q).imp fun _ h => h.2
  refine ⟨fun i k => (Qs.map fun Q =>
    Real.log (choiceProb (fun a c => prefAllPairs σ (X i) (Q a) (Q c)) (best (X k) Q))).sum, ?_, ?_, ?_⟩
  · intro i k
    rw [alignment, if_neg (by omega), alignLoglik, repG_ok hs σ (X i) (X k) _ (hb (X k)),
      repG_ok hs σ (X k) (X i) _ (hb (X i))]
    rfl
  · intro i k
    dsimp only
    induction Qs with
    | nil => simp
    | cons Q Qs ih =>
      rw [List.map_cons, List.sum_cons, ← repP_eq]
      have := Real.log_nonpos (repP_pos_le σ (X i) Q (best (X k) Q)).1.le
        (repP_pos_le σ (X i) Q (best (X k) Q)).2
      linarith
  · intro i k best' hb'
    have : best' = best (X k) := funext fun Q => firstMax_unique (hb' Q) (hb (X k) Q)
    rw [this]

/-- C75 (`loglikelihood`, pair queries): the factor of a pair query is the probability that the first
utility prefers what the second prefers, as long as the clipping of the normal distribution at -30 is not
reached. -/
theorem C75_loglik_pair (σ : ℝ) (x : Fin d → ℝ) (Q : Fin 2 → Fin d) (b : Fin 2)
    (h : |(x (Q 0) - x (Q 1)) * isqrt2sig σ| ≤ 30) :
    choiceProb (fun a c => prefAllPairs σ x (Q a) (Q c)) b =
      Phi ((x (Q b) - x (Q (1 - b))) / (σ * √2)) := by
  have h0 := (abs_le.1 h).1
  have h1 := (abs_le.1 h).2
  have e0 : (univ.erase 0 : Finset (Fin 2)) = {1} := by decide
  have e1 : (univ.erase 1 : Finset (Fin 2)) = {0} := by decide
  have p0 : prefAllPairs σ x (Q 0) (Q 1) = Phi ((x (Q 0) - x (Q 1)) * isqrt2sig σ) :=
    stdNormCdf_of_mem h0 (by linarith)
  have hneg : (x (Q 1) - x (Q 0)) * isqrt2sig σ = -((x (Q 0) - x (Q 1)) * isqrt2sig σ) := by ring
  have p1 : prefAllPairs σ x (Q 1) (Q 0) = 1 - Phi ((x (Q 0) - x (Q 1)) * isqrt2sig σ) := by
    rw [prefAllPairs, hneg, stdNormCdf_of_mem (by linarith) (by linarith), Phi_neg]
  have hsum : (∑ q' : Fin 2, ∏ j ∈ univ.erase q', prefAllPairs σ x (Q q') (Q j)) = 1 := by
    rw [Fin.sum_univ_two, e0, e1, prod_singleton, prod_singleton, p0, p1]
    ring
  have hc : ∀ t : ℝ, t * isqrt2sig σ = t / (σ * √2) := fun t => by rw [isqrt2sig]; ring
  rw [choiceProb, hsum, div_one]
  have f0 : (∏ j ∈ univ.erase (0 : Fin 2), prefAllPairs σ x (Q 0) (Q j)) =
      Phi ((x (Q 0) - x (Q 1)) / (σ * √2)) := by rw [e0, prod_singleton, p0, hc]
  have f1 : (∏ j ∈ univ.erase (1 : Fin 2), prefAllPairs σ x (Q 1) (Q j)) =
      Phi ((x (Q 1) - x (Q 0)) / (σ * √2)) := by
    rw [e1, prod_singleton, p1, ← hc, hneg, Phi_neg]
  rcases Fin.exists_fin_two.1 ⟨b, rfl⟩ with rfl | rfl
  · exact f0
  · exact f1

/-- C75 (`loglikelihood`) refuted: a utility need not be at least as aligned with itself as with others;
doubling a utility gives a strictly larger alignment (one pair query, noise level one). -/
theorem C75_loglik_self_false :
    ∃ (X : Fin 2 → Fin 2 → ℝ) (Qs : List (Fin 2 → Fin 2)) (a b : ℝ),
      alignment 1 (some .loglikelihood) X Qs 0 0 = .ok (some (some a)) ∧
      alignment 1 (some .loglikelihood) X Qs 0 1 = .ok (some (some b)) ∧ a < b := by
  obtain ⟨G, h1, -, h2⟩ := C75_loglik (M := 2) (le_refl 2) (s := 2) (by norm_num) 1
    ![![1, 0], ![2, 0]] [![0, 1]]
  refine ⟨![![1, 0], ![2, 0]], [![0, 1]], _, _, h1 0 0, h1 0 1, ?_⟩
  have hs2 : (1 : ℝ) < √2 := by
    rw [Real.lt_sqrt (by norm_num)]; norm_num
  have hi : 0 < isqrt2sig 1 ∧ isqrt2sig 1 < 1 := by
    rw [isqrt2sig, one_mul]
    exact ⟨by positivity, by rw [div_lt_one (by positivity)]; exact hs2⟩
  choose best hb using fun (x : Fin 2 → ℝ) (Q : Fin 2 → Fin 2) =>
    (repBest_ok (s := 2) (by norm_num) x Q).imp fun _ h => h.2
  have hb0 : ∀ t : ℝ, 0 < t → best ![t, 0] ![0, 1] = 0 := by
    intro t ht
    apply firstMax_unique (hb _ _)
    constructor
    · intro j
      fin_cases j <;> simp [ht.le]
    · intro j hj
      exact absurd hj (by simp)
  have val : ∀ (i k : Fin 2) (t u : ℝ), (![![1, 0], ![2, 0]] : Fin 2 → Fin 2 → ℝ) i = ![t, 0] →
      (![![1, 0], ![2, 0]] : Fin 2 → Fin 2 → ℝ) k = ![u, 0] → 0 < t → t ≤ 2 → 0 < u →
      G i k = Real.log (Phi (t / √2)) := by
    intro i k t u hi' hk ht ht2 hu
    rw [h2 i k _ (hb _)]
    have hab : |((![t, 0] : Fin 2 → ℝ) ((![0, 1] : Fin 2 → Fin 2) 0) -
        (![t, 0] : Fin 2 → ℝ) ((![0, 1] : Fin 2 → Fin 2) 1)) * isqrt2sig 1| ≤ 30 := by
      simp only [Matrix.cons_val_zero, Matrix.cons_val_one, sub_zero]
      rw [abs_of_nonneg (mul_nonneg ht.le hi.1.le)]
      nlinarith [hi.1, hi.2]
    have := C75_loglik_pair 1 ![t, 0] ![0, 1] 0 hab
    rw [hk, hi', List.map_singleton, List.sum_singleton, hb0 u hu, this]
    simp
  rw [val 0 0 1 1 rfl rfl (by norm_num) (by norm_num) (by norm_num),
    val 0 1 1 2 rfl rfl (by norm_num) (by norm_num) (by norm_num),
    val 1 0 2 1 rfl rfl (by norm_num) (by norm_num) (by norm_num)]
  have hlt : Phi (1 / √2) < Phi (2 / √2) :=
    Phi_strictMono (div_lt_div_of_pos_right (by norm_num) (by positivity))
  have := Real.log_lt_log (Phi_pos _) hlt
  linarith

/-- C75 (`loglikelihood`, empty queries): `np.argmax` over no position raises. -/
theorem C75_loglik_empty (hd : 2 ≤ d) (σ : ℝ) (X : Fin M → Fin d → ℝ) (Qs : List (Fin 0 → Fin d))
    (h : Qs ≠ []) (i k : Fin M) :
    alignment σ (some .loglikelihood) X Qs i k = .error .valueError := by
  obtain ⟨Q, Qs', rfl⟩ := List.exists_cons_of_ne_nil h
  rw [alignment, if_neg (by omega), alignLoglik, repG, List.mapM_cons]
  rfl

end

end Lop.Props
