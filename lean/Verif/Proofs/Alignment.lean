import Verif.Model.Alignment
import Verif.Spec.Alignment
import Verif.Proofs.PrefProbit
import Verif.Proofs.OrdProbit
import Mathlib.Analysis.InnerProductSpace.PiL2
import Mathlib.Tactic.Linarith
import Mathlib.Tactic.Ring
import Mathlib.Tactic.FieldSimp
import Mathlib.Tactic.Positivity
import Mathlib.Algebra.BigOperators.Field

/-! # Helper lemmas for the alignment functions -/

namespace Lop

open Finset Spec
open scoped RealInnerProductSpace

variable {M d : Nat}

/-- The centred row. -/
noncomputable def cRow (x : Fin d → ℝ) : EuclideanSpace ℝ (Fin d) :=
  WithLp.toLp 2 fun j => x j - (∑ k, x k) / d

/-- The centred row scaled to unit length. -/
noncomputable def uRow (x : Fin d → ℝ) : EuclideanSpace ℝ (Fin d) := ‖cRow x‖⁻¹ • cRow x

theorem cRow_inner (x y : Fin d → ℝ) :
    ⟪cRow x, cRow y⟫ = ∑ j, (x j - (∑ k, x k) / d) * (y j - (∑ k, y k) / d) := by
  rw [PiLp.inner_apply]
  simp [cRow, mul_comm]

theorem npCov_eq (x y : Fin d → ℝ) : npCov x y = ⟪cRow x, cRow y⟫ / ((d : ℝ) - 1) := by
  rw [npCov, cRow_inner]

theorem cRow_eq_zero (x : Fin d → ℝ) : cRow x = 0 ↔ ¬ NonConstant x := by
  constructor
  · rintro h ⟨j, k, hjk⟩
    have e : ∀ j, x j - (∑ k, x k) / d = 0 := fun j => congrFun (congrArg WithLp.ofLp h) j
    exact hjk (by linarith [e j, e k])
  · intro h
    ext j
    have h' : ∀ k, x k = x j := by
      intro k
      by_contra hk
      exact h ⟨k, j, hk⟩
    have hd : (d : ℝ) ≠ 0 := by
      have := j.2
      exact_mod_cast (by omega : d ≠ 0)
    have : (∑ k, x k) = d * x j := by simp [h']
    change x j - (∑ k, x k) / d = 0
    rw [this]; field_simp; ring

theorem sqrt_npCov (hd : 2 ≤ d) (x : Fin d → ℝ) : √(npCov x x) = ‖cRow x‖ / √((d : ℝ) - 1) := by
  rw [npCov_eq, real_inner_self_eq_norm_sq, Real.sqrt_div (by positivity),
    Real.sqrt_sq (norm_nonneg _)]

theorem sqrt_pred_pos (hd : 2 ≤ d) : 0 < √((d : ℝ) - 1) := by
  apply Real.sqrt_pos.2
  have : (2 : ℝ) ≤ d := by exact_mod_cast hd
  linarith

theorem sqrt_npCov_eq_zero (hd : 2 ≤ d) (x : Fin d → ℝ) : √(npCov x x) = 0 ↔ ¬ NonConstant x := by
  rw [sqrt_npCov hd, div_eq_zero_iff, norm_eq_zero, cRow_eq_zero]
  simp [(sqrt_pred_pos hd).ne']

theorem norm_uRow {x : Fin d → ℝ} (hx : NonConstant x) : ‖uRow x‖ = 1 := by
  have h : cRow x ≠ 0 := fun e => (cRow_eq_zero x).1 e hx
  rw [uRow, norm_smul, norm_inv, norm_norm, inv_mul_cancel₀ (norm_ne_zero_iff.2 h)]

theorem inner_uRow_le (x y : Fin d → ℝ) (hx : NonConstant x) (hy : NonConstant y) :
    -1 ≤ ⟪uRow x, uRow y⟫ ∧ ⟪uRow x, uRow y⟫ ≤ 1 := by
  have := abs_le.1 (abs_real_inner_le_norm (uRow x) (uRow y))
  rw [norm_uRow hx, norm_uRow hy] at this
  simpa using this

theorem npCorr_eq (hd : 2 ≤ d) {x y : Fin d → ℝ} (hx : NonConstant x) (hy : NonConstant y) :
    npCorr x y = some ⟪uRow x, uRow y⟫ := by
  have h1 : ¬ √(npCov x x) = 0 := by rw [sqrt_npCov_eq_zero hd]; simpa using hx
  have h2 : ¬ √(npCov y y) = 0 := by rw [sqrt_npCov_eq_zero hd]; simpa using hy
  rw [npCorr, if_neg (by tauto)]
  have e : npCov x y / √(npCov x x) / √(npCov y y) = ⟪uRow x, uRow y⟫ := by
    have hx0 : ‖cRow x‖ ≠ 0 := norm_ne_zero_iff.2 fun e => (cRow_eq_zero x).1 e hx
    have hy0 : ‖cRow y‖ ≠ 0 := norm_ne_zero_iff.2 fun e => (cRow_eq_zero y).1 e hy
    have hs := (sqrt_pred_pos hd).ne'
    have hq : √((d : ℝ) - 1) * √((d : ℝ) - 1) = (d : ℝ) - 1 := by
      apply Real.mul_self_sqrt
      have : (2 : ℝ) ≤ d := by exact_mod_cast hd
      linarith
    have hd1 : (d : ℝ) - 1 ≠ 0 := by rw [← hq]; exact mul_ne_zero hs hs
    rw [sqrt_npCov hd, sqrt_npCov hd, npCov_eq, uRow, uRow, real_inner_smul_left, real_inner_smul_right]
    generalize ⟪cRow x, cRow y⟫ = t
    generalize √((d : ℝ) - 1) = r at hs hq
    rw [← hq]
    field_simp
  rw [e]
  obtain ⟨l, u⟩ := inner_uRow_le x y hx hy
  rw [max_eq_right l, min_eq_right u]

theorem npCorr_none (hd : 2 ≤ d) {x y : Fin d → ℝ} (h : ¬ NonConstant x ∨ ¬ NonConstant y) :
    npCorr x y = none := by
  rw [npCorr, if_pos]
  rwa [sqrt_npCov_eq_zero hd, sqrt_npCov_eq_zero hd]

theorem cRow_affine (a c : ℝ) {x y : Fin d → ℝ} (h : ∀ j, y j = a * x j + c) : cRow y = a • cRow x := by
  ext j
  have hd : (d : ℝ) ≠ 0 := by
    have := j.2
    exact_mod_cast (by omega : d ≠ 0)
  change y j - (∑ k, y k) / d = a * (x j - (∑ k, x k) / d)
  simp only [h, sum_add_distrib, ← mul_sum]
  simp
  field_simp
  ring

theorem affine_of_cRow (a : ℝ) {x y : Fin d → ℝ} (h : cRow y = a • cRow x) :
    ∃ c, ∀ j, y j = a * x j + c := by
  refine ⟨(∑ k, y k) / d - a * ((∑ k, x k) / d), fun j => ?_⟩
  have : y j - (∑ k, y k) / d = a * (x j - (∑ k, x k) / d) := congrFun (congrArg WithLp.ofLp h) j
  linarith

theorem uRow_eq_iff {x y : Fin d → ℝ} (hx : NonConstant x) (hy : NonConstant y) :
    uRow x = uRow y ↔ ∃ a c : ℝ, 0 < a ∧ ∀ j, y j = a * x j + c := by
  have hx0 : 0 < ‖cRow x‖ := norm_pos_iff.2 fun e => (cRow_eq_zero x).1 e hx
  have hy0 : 0 < ‖cRow y‖ := norm_pos_iff.2 fun e => (cRow_eq_zero y).1 e hy
  constructor
  · intro h
    have : cRow y = (‖cRow y‖ * ‖cRow x‖⁻¹) • cRow x := by
      have e : cRow y = ‖cRow y‖ • uRow y := by
        rw [uRow, smul_smul, mul_inv_cancel₀ hy0.ne', one_smul]
      conv_lhs => rw [e, ← h, uRow, smul_smul]
    obtain ⟨c, hc⟩ := affine_of_cRow _ this
    exact ⟨_, c, by positivity, hc⟩
  · rintro ⟨a, c, ha, h⟩
    rw [uRow, uRow, cRow_affine a c h, norm_smul, Real.norm_of_nonneg ha.le, smul_smul]
    congr 1
    field_simp

theorem uRow_neg (x : Fin d → ℝ) : uRow (fun j => -x j) = -uRow x := by
  have h : cRow (fun j => -x j) = (-1 : ℝ) • cRow x := cRow_affine (-1) 0 fun j => by ring
  rw [uRow, uRow, h]
  simp

theorem nonConstant_neg {x : Fin d → ℝ} (hx : NonConstant x) : NonConstant fun j => -x j := by
  obtain ⟨j, k, h⟩ := hx
  exact ⟨j, k, fun e => h (by linarith)⟩

theorem uRow_eq_neg_iff {x y : Fin d → ℝ} (hx : NonConstant x) (hy : NonConstant y) :
    uRow x = -uRow y ↔ ∃ a c : ℝ, 0 < a ∧ ∀ j, y j = -(a * x j) + c := by
  rw [← uRow_neg, uRow_eq_iff hx (nonConstant_neg hy)]
  constructor
  · rintro ⟨a, c, ha, h⟩
    exact ⟨a, -c, ha, fun j => by linarith [h j]⟩
  · rintro ⟨a, c, ha, h⟩
    exact ⟨a, -c, ha, fun j => by linarith [h j]⟩

theorem norm_sub_uRow {x y : Fin d → ℝ} (hx : NonConstant x) (hy : NonConstant y) :
    ‖uRow x - uRow y‖ ^ 2 = 2 * (1 - ⟪uRow x, uRow y⟫) := by
  rw [norm_sub_sq_real, norm_uRow hx, norm_uRow hy]; ring

theorem inner_uRow_eq_one {x y : Fin d → ℝ} (hx : NonConstant x) (hy : NonConstant y) :
    ⟪uRow x, uRow y⟫ = 1 ↔ uRow x = uRow y := by
  rw [← sub_eq_zero (a := uRow x), ← norm_eq_zero, ← sq_eq_zero_iff, norm_sub_uRow hx hy]
  constructor <;> intro h <;> linarith

theorem inner_uRow_eq_neg_one {x y : Fin d → ℝ} (hx : NonConstant x) (hy : NonConstant y) :
    ⟪uRow x, uRow y⟫ = -1 ↔ uRow x = -uRow y := by
  have h := inner_uRow_eq_one hx (nonConstant_neg hy)
  rw [uRow_neg, inner_neg_right] at h
  rw [← h]
  constructor <;> intro h <;> linarith

theorem epicOf_eq (hd : 2 ≤ d) {x y : Fin d → ℝ} (hx : NonConstant x) (hy : NonConstant y) :
    epicOf x y = some (-(‖uRow x - uRow y‖ / 2)) := by
  have : √(1 - ⟪uRow x, uRow y⟫) / √2 = ‖uRow x - uRow y‖ / 2 := by
    have e : 1 - ⟪uRow x, uRow y⟫ = ‖uRow x - uRow y‖ ^ 2 / 2 := by rw [norm_sub_uRow hx hy]; ring
    rw [e, Real.sqrt_div (by positivity), Real.sqrt_sq (norm_nonneg _), div_div,
      Real.mul_self_sqrt (by norm_num)]
  rw [epicOf, npCorr_eq hd hx hy, Option.map_some, this]

/-! ## Ranks -/

theorem rankRow_lt_iff (x : Fin d → ℝ) (j k : Fin d) : rankRow x j < rankRow x k ↔ x j < x k := by
  have mono : ∀ j k, x j < x k → rankRow x j < rankRow x k := by
    intro j k h
    have hsub : (univ.filter fun l => x l < x j) ∪ (univ.filter fun l => x l = x j) ⊆
        univ.filter fun l => x l < x k := by
      intro l hl
      simp only [mem_union, mem_filter, mem_univ, true_and] at hl ⊢
      rcases hl with hl | hl <;> linarith
    have hdis : Disjoint (univ.filter fun l => x l < x j) (univ.filter fun l => x l = x j) := by
      rw [disjoint_filter]
      intro l _ h1 h2
      linarith
    have hc := card_le_card hsub
    rw [card_union_of_disjoint hdis] at hc
    have hj : 1 ≤ (univ.filter fun l => x l = x j).card :=
      card_pos.2 ⟨j, by simp⟩
    have hk : 1 ≤ (univ.filter fun l => x l = x k).card :=
      card_pos.2 ⟨k, by simp⟩
    have hc' : ((univ.filter fun l => x l < x j).card : ℝ) + (univ.filter fun l => x l = x j).card ≤
        (univ.filter fun l => x l < x k).card := by exact_mod_cast hc
    have hj' : (1 : ℝ) ≤ (univ.filter fun l => x l = x j).card := by exact_mod_cast hj
    have hk' : (1 : ℝ) ≤ (univ.filter fun l => x l = x k).card := by exact_mod_cast hk
    rw [rankRow, rankRow]
    linarith
  constructor
  · intro h
    by_contra hn
    rcases (not_lt.1 hn).lt_or_eq with h' | h'
    · linarith [mono k j h']
    · have : rankRow x k = rankRow x j := by rw [rankRow, rankRow, h']
      linarith
  · exact mono j k

theorem rankRow_eq_iff (x : Fin d → ℝ) (j k : Fin d) : rankRow x j = rankRow x k ↔ x j = x k := by
  constructor
  · intro h
    rcases lt_trichotomy (x j) (x k) with h' | h' | h'
    · have := (rankRow_lt_iff x j k).2 h'
      linarith
    · exact h'
    · have := (rankRow_lt_iff x k j).2 h'
      linarith
  · intro h
    rw [rankRow, rankRow, h]

theorem nonConstant_rankRow (x : Fin d → ℝ) : NonConstant (rankRow x) ↔ NonConstant x := by
  simp only [NonConstant, ne_eq, rankRow_eq_iff]

theorem sameOrder_eq_iff {x y : Fin d → ℝ} (h : SameOrder x y) (j k : Fin d) : x j = x k ↔ y j = y k := by
  rw [eq_iff_le_not_lt, eq_iff_le_not_lt, ← not_lt, ← not_lt, h k j, h j k]

theorem sameOrder_rankRow_eq {x y : Fin d → ℝ} (h : SameOrder x y) : rankRow x = rankRow y := by
  funext j
  rw [rankRow, rankRow]
  simp only [fun k => h k j, fun k => sameOrder_eq_iff h k j]

theorem rankRow_neg (x : Fin d → ℝ) (j : Fin d) :
    rankRow (fun l => -x l) j = (d + 1 : ℝ) - rankRow x j := by
  have h1 : (univ.filter fun k => -x k < -x j) = univ.filter fun k => x j < x k := by
    ext k; simp
  have h2 : (univ.filter fun k => -x k = -x j) = univ.filter fun k => x k = x j := by
    ext k; simp
  have hsum : (univ.filter fun k => x k < x j).card + (univ.filter fun k => x k = x j).card +
      (univ.filter fun k => x j < x k).card = d := by
    rw [← card_union_of_disjoint, ← card_union_of_disjoint]
    · have hu : (univ.filter fun k => x k < x j) ∪ (univ.filter fun k => x k = x j) ∪
          (univ.filter fun k => x j < x k) = univ := by
        ext k
        simp only [mem_union, mem_filter, mem_univ, true_and, iff_true]
        rcases lt_trichotomy (x k) (x j) with h | h | h <;> tauto
      rw [hu, card_univ, Fintype.card_fin]
    · rw [disjoint_left]
      intro k
      simp only [mem_union, mem_filter, mem_univ, true_and]
      rintro (h | h) h' <;> linarith
    · rw [disjoint_filter]
      intro k _ h h'
      linarith
  have hs : ((univ.filter fun k => x k < x j).card : ℝ) + (univ.filter fun k => x k = x j).card +
      (univ.filter fun k => x j < x k).card = d := by exact_mod_cast hsum
  rw [rankRow, rankRow, h1, h2]
  linarith

theorem sameOrder_iff_affine {x y : Fin d → ℝ} :
    SameOrder x y ↔ ∃ a c : ℝ, 0 < a ∧ ∀ j, rankRow y j = a * rankRow x j + c := by
  constructor
  · intro h
    exact ⟨1, 0, one_pos, fun j => by rw [sameOrder_rankRow_eq h]; ring⟩
  · rintro ⟨a, c, ha, h⟩ j k
    rw [← rankRow_lt_iff x, ← rankRow_lt_iff y, h, h]
    constructor
    · intro hl
      have := mul_lt_mul_of_pos_left hl ha
      linarith
    · intro hl
      exact lt_of_mul_lt_mul_left (by linarith : a * rankRow x j < a * rankRow x k) ha.le

theorem oppositeOrder_iff_affine {x y : Fin d → ℝ} :
    OppositeOrder x y ↔ ∃ a c : ℝ, 0 < a ∧ ∀ j, rankRow y j = -(a * rankRow x j) + c := by
  have e : OppositeOrder x y ↔ SameOrder x fun j => -y j := by
    simp [OppositeOrder, SameOrder]
  rw [e, sameOrder_iff_affine]
  simp only [rankRow_neg]
  constructor
  · rintro ⟨a, c, ha, h⟩
    exact ⟨a, d + 1 - c, ha, fun j => by linarith [h j]⟩
  · rintro ⟨a, c, ha, h⟩
    exact ⟨a, d + 1 - c, ha, fun j => by linarith [h j]⟩

/-! ## Softmax distance -/

/-- The softmax row as a vector. -/
noncomputable def sRow (x : Fin d → ℝ) : EuclideanSpace ℝ (Fin d) := WithLp.toLp 2 (softmaxRow x)

theorem alignRho_eq (X : Fin M → Fin d → ℝ) (i k : Fin M) :
    alignRho X i k = -‖sRow (X i) - sRow (X k)‖ := by
  rw [alignRho, norm_sub_rev, EuclideanSpace.norm_eq]
  congr 2
  apply sum_congr rfl
  intro j _
  simp [sRow, Real.norm_eq_abs, sq_abs]

theorem sum_exp_pos (x : Fin d → ℝ) (j : Fin d) : 0 < ∑ k, Real.exp (x k) :=
  sum_pos (fun k _ => Real.exp_pos _) ⟨j, mem_univ j⟩

theorem softmaxRow_nonneg (x : Fin d → ℝ) (j : Fin d) : 0 < softmaxRow x j :=
  div_pos (Real.exp_pos _) (sum_exp_pos x j)

theorem softmaxRow_sum (hd : 0 < d) (x : Fin d → ℝ) : ∑ j, softmaxRow x j = 1 := by
  simp only [softmaxRow, ← sum_div]
  exact div_self (sum_exp_pos x ⟨0, hd⟩).ne'

theorem softmaxRow_le_one (x : Fin d → ℝ) (j : Fin d) : softmaxRow x j ≤ 1 := by
  rw [← softmaxRow_sum (by have := j.2; omega) x]
  exact single_le_sum (f := softmaxRow x) (fun k _ => (softmaxRow_nonneg x k).le) (mem_univ j)

theorem softmaxRow_eq_iff (hd : 0 < d) (x y : Fin d → ℝ) :
    softmaxRow x = softmaxRow y ↔ ∃ c : ℝ, ∀ j, y j = x j + c := by
  constructor
  · intro h
    refine ⟨Real.log (∑ k, Real.exp (y k)) - Real.log (∑ k, Real.exp (x k)), fun j => ?_⟩
    have := congrFun h j
    have h2 : Real.log (softmaxRow x j) = Real.log (softmaxRow y j) := by rw [this]
    rw [softmaxRow, softmaxRow, Real.log_div (Real.exp_pos _).ne' (sum_exp_pos x j).ne',
      Real.log_div (Real.exp_pos _).ne' (sum_exp_pos y j).ne', Real.log_exp, Real.log_exp] at h2
    linarith
  · rintro ⟨c, h⟩
    funext j
    rw [softmaxRow, softmaxRow]
    simp only [h, Real.exp_add, ← sum_mul]
    have := (sum_exp_pos x j).ne'
    have := (Real.exp_pos c).ne'
    field_simp

theorem softmax_dist_lt (hd : 0 < d) (x y : Fin d → ℝ) : ‖sRow x - sRow y‖ < √2 := by
  rw [EuclideanSpace.norm_eq]
  apply Real.sqrt_lt_sqrt (sum_nonneg fun _ _ => sq_nonneg _)
  have h : ∑ j, ‖(sRow x - sRow y) j‖ ^ 2 =
      ∑ j, softmaxRow x j * softmaxRow x j + ∑ j, softmaxRow y j * softmaxRow y j -
        2 * ∑ j, softmaxRow x j * softmaxRow y j := by
    rw [← sum_add_distrib, mul_sum, ← sum_sub_distrib]
    apply sum_congr rfl
    intro j _
    simp only [sRow, PiLp.sub_apply, Real.norm_eq_abs, sq_abs]
    ring
  have b : ∀ x : Fin d → ℝ, ∑ j, softmaxRow x j * softmaxRow x j ≤ 1 := by
    intro x
    rw [← softmaxRow_sum hd x]
    apply sum_le_sum
    intro j _
    nlinarith [softmaxRow_nonneg x j, softmaxRow_le_one x j]
  have p : 0 < ∑ j, softmaxRow x j * softmaxRow y j :=
    sum_pos (fun k _ => mul_pos (softmaxRow_nonneg _ _) (softmaxRow_nonneg _ _)) ⟨⟨0, hd⟩, mem_univ _⟩
  rw [h]
  linarith [b x, b y]

end Lop
