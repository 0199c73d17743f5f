import Verif.Model.GVUcb
import Verif.Spec.GVUcb
import Verif.Proofs.Basic
import Mathlib.Analysis.Matrix.PosDef
import Mathlib.Analysis.Matrix.Spectrum
import Mathlib.Analysis.MeanInequalities
import Mathlib.LinearAlgebra.Matrix.SchurComplement
import Mathlib.Data.List.NodupEquivFin
import Mathlib.Logic.Equiv.Fin.Basic
import Mathlib.Tactic.Linarith
import Mathlib.Tactic.Ring
import Mathlib.Tactic.FieldSimp
import Mathlib.Tactic.Positivity

/-! # Lemmas about the generalised variance -/

namespace Lop

open Lop.Spec Matrix

noncomputable section

theorem covDet_eq (cov : Nat → Nat → ℝ) (l : List Nat) : covDet cov l = (famCov cov (famOf l)).det := rfl

theorem isCov_posSemidef {N : Nat} {c : Nat → Nat → ℝ} (h : IsCov N c) :
    (Matrix.of fun a b : Fin N => c a b).PosSemidef := by
  refine PosSemidef.of_dotProduct_mulVec_nonneg ?_ ?_
  · ext a b; simpa using h.1 b b.2 a a.2
  · intro x
    have := h.2 x
    simp only [star_trivial, dotProduct, mulVec, Finset.mul_sum, of_apply]
    refine this.trans_eq (Finset.sum_congr rfl fun a _ => Finset.sum_congr rfl fun b _ => by ring)

theorem famCov_posSemidef {ι : Type*} [Fintype ι] [DecidableEq ι] {N : Nat} {c : Nat → Nat → ℝ}
    (h : IsCov N c) (e : ι → Nat) (he : ∀ a, e a < N) : (famCov c e).PosSemidef :=
  (isCov_posSemidef h).submatrix fun a => (⟨e a, he a⟩ : Fin N)

theorem famOf_lt {N : Nat} {l : List Nat} (h : ∀ i ∈ l, i < N) (a : Fin l.length) : famOf l a < N :=
  h _ (List.getElem_mem _)

theorem covDet_nonneg {N : Nat} {c : Nat → Nat → ℝ} (h : IsCov N c) {l : List Nat} (hl : ∀ i ∈ l, i < N) :
    0 ≤ covDet c l :=
  (famCov_posSemidef h _ (famOf_lt hl)).det_nonneg

theorem npRoot_nonneg {x : ℝ} (hx : 0 ≤ x) (n : Nat) : npRoot x n = some (x ^ (1 / n : ℝ)) := by
  rw [npRoot, if_neg]; intro h; exact absurd h.1 (not_lt.mpr hx)

/-- The standardised generalised variance is unique. -/
theorem isSGV_unique {ι : Type*} [Fintype ι] [DecidableEq ι] [Nonempty ι] {c : Nat → Nat → ℝ} {e : ι → Nat}
    {s t : ℝ} (hs : IsSGV c e s) (ht : IsSGV c e t) : s = t :=
  pow_left_injective₀' hs.1 ht.1 (hs.2.trans ht.2.symm)
where
  pow_left_injective₀' {s t : ℝ} (hs : 0 ≤ s) (ht : 0 ≤ t)
      (h : s ^ Fintype.card ι = t ^ Fintype.card ι) : s = t :=
    (pow_left_inj₀ hs ht Fintype.card_ne_zero).mp h

theorem isSGV_root {N : Nat} {c : Nat → Nat → ℝ} (h : IsCov N c) {l : List Nat} (hl : ∀ i ∈ l, i < N)
    (hne : l ≠ []) : IsSGV c (famOf l) (covDet c l ^ (1 / l.length : ℝ)) := by
  have h0 := covDet_nonneg h hl
  refine ⟨Real.rpow_nonneg h0 _, ?_⟩
  rw [Fintype.card_fin, one_div, Real.rpow_inv_natCast_pow h0 (by simpa using hne), covDet_eq]

/-- Two index families related by a bijection have the same generalised variance. -/
theorem famCov_det_equiv {ι κ : Type*} [Fintype ι] [DecidableEq ι] [Fintype κ] [DecidableEq κ]
    (c : Nat → Nat → ℝ) (e : ι → Nat) (σ : κ ≃ ι) : (famCov c (e ∘ σ)).det = (famCov c e).det := by
  rw [← Matrix.det_submatrix_equiv_self σ (famCov c e)]; rfl

/-- The positions of `l ++ [i]`: those of `l`, and one more. -/
def snocEquiv (l : List Nat) (i : Nat) : Fin l.length ⊕ Unit ≃ Fin (l ++ [i]).length :=
  ((Equiv.refl _).sumCongr finOneEquiv.symm).trans (finSumFinEquiv.trans (finCongr (by simp)))

theorem famOf_snoc (l : List Nat) (i : Nat) :
    famOf (l ++ [i]) ∘ snocEquiv l i = Sum.elim (famOf l) fun _ => i := by
  funext x
  rcases x with a | u
  · simp [snocEquiv, famOf, List.getElem_append]
  · simp [snocEquiv, famOf, List.getElem_append]

theorem covDet_snoc (c : Nat → Nat → ℝ) (l : List Nat) (i : Nat) :
    covDet c (l ++ [i]) = (famCov c (Sum.elim (famOf l) fun _ : Unit => i)).det := by
  rw [covDet_eq, ← famOf_snoc, famCov_det_equiv]

/-- Schur's formula. -/
theorem covDet_snoc_schur (c : Nat → Nat → ℝ) (l : List Nat) (i : Nat) (h : covDet c l ≠ 0) :
    covDet c (l ++ [i]) = covDet c l * condVariance c (famOf l) i := by
  have hu : IsUnit (famCov c (famOf l)).det := isUnit_iff_ne_zero.mpr h
  letI := (famCov c (famOf l)).invertibleOfIsUnitDet hu
  have hb : famCov c (Sum.elim (famOf l) fun _ : Unit => i) =
      fromBlocks (famCov c (famOf l)) (Matrix.of fun a (_ : Unit) => c (famOf l a) i)
        (Matrix.of fun (_ : Unit) a => c i (famOf l a)) (Matrix.of fun _ _ => c i i) := by
    ext x y; rcases x with x | x <;> rcases y with y | y <;> rfl
  rw [covDet_snoc, hb, det_fromBlocks₁₁, covDet_eq, det_unique (n := Unit), condVariance, invOf_eq_nonsing_inv]
  congr 1
  simp only [Matrix.sub_apply, of_apply, mul_apply, dotProduct, mulVec, Finset.mul_sum, Finset.sum_mul]
  rw [Finset.sum_comm]
  congr 1
  exact Finset.sum_congr rfl fun a _ => Finset.sum_congr rfl fun b _ => by ring

/-- A repeated point makes the determinant vanish. -/
theorem covDet_snoc_mem (c : Nat → Nat → ℝ) (l : List Nat) (i : Nat) (h : i ∈ l) :
    covDet c (l ++ [i]) = 0 := by
  obtain ⟨k, hk, rfl⟩ := List.getElem_of_mem h
  rw [covDet_snoc]
  exact det_zero_of_row_eq (i := Sum.inl ⟨k, hk⟩) (j := Sum.inr ()) (by simp) (by
    funext y; simp [famCov, famOf])

theorem covDet_perm (c : Nat → Nat → ℝ) {l l' : List Nat} (h : l.Perm l') (hn : l.Nodup) :
    covDet c l = covDet c l' := by
  have hn' : l'.Nodup := h.nodup_iff.mp hn
  let σ : Fin l.length ≃ Fin l'.length := (hn.getEquiv l).trans
    ((Equiv.subtypeEquivRight fun x => h.mem_iff).trans (hn'.getEquiv l').symm)
  have : famOf l = famOf l' ∘ σ := by
    funext a
    have := congrArg Subtype.val ((hn'.getEquiv l').apply_symm_apply
      ((Equiv.subtypeEquivRight fun x => h.mem_iff) (hn.getEquiv l a)))
    simp only [List.Nodup.getEquiv_apply_coe] at this
    simpa [famOf, σ] using this.symm
  rw [covDet_eq, covDet_eq, this, famCov_det_equiv]

/-- Geometric mean of eigenvalues at most arithmetic mean of variances. -/
theorem isSGV_le_mean {ι : Type*} [Fintype ι] [DecidableEq ι] [Nonempty ι] {c : Nat → Nat → ℝ} {e : ι → Nat}
    {s : ℝ} (hs : IsSGV c e s) (hp : (famCov c e).PosSemidef) :
    s ≤ (∑ a, c (e a) (e a)) / Fintype.card ι := by
  set n : ℝ := (Fintype.card ι : ℝ) with hn
  have hn0 : 0 < n := by rw [hn]; exact_mod_cast Fintype.card_pos
  have key := Real.geom_mean_le_arith_mean_weighted Finset.univ (fun _ : ι => 1 / n) hp.1.eigenvalues
    (fun _ _ => by positivity) (by simp [← hn, mul_inv_cancel₀ hn0.ne']) (fun a _ => hp.eigenvalues_nonneg a)
  rw [Real.finset_prod_rpow _ _ (fun a _ => hp.eigenvalues_nonneg a)] at key
  have hd : (famCov c e).det = ∏ a, hp.1.eigenvalues a := by
    simpa using hp.1.det_eq_prod_eigenvalues
  have ht : (∑ a, c (e a) (e a)) = ∑ a, hp.1.eigenvalues a := by
    simpa [trace, famCov] using hp.1.trace_eq_sum_eigenvalues
  rw [← hd, ← hs.2, hn, one_div, Real.pow_rpow_inv_natCast hs.1 Fintype.card_ne_zero, ← Finset.mul_sum, ← ht] at key
  rw [div_eq_inv_mul]; exact key

end

end Lop
