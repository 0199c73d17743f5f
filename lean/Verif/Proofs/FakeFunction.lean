import Verif.Model.FakeFunction
import Verif.Spec.FakeFunction
import Mathlib.Algebra.BigOperators.Field
import Mathlib.Tactic.Linarith
import Mathlib.Tactic.Ring
import Mathlib.Tactic.FieldSimp
import Mathlib.Tactic.Positivity

/-! Helper lemmas for C61 and C69. -/

namespace Lop

open Finset Spec

variable {n : Nat}

theorem le_vecMax (x : Fin (n + 1) → ℝ) (k : Fin (n + 1)) : x k ≤ vecMax x := le_sup' x (mem_univ k)

theorem vecMin_le (x : Fin (n + 1) → ℝ) (k : Fin (n + 1)) : vecMin x ≤ x k := inf'_le x (mem_univ k)

theorem vecMax_mono {x y : Fin (n + 1) → ℝ} (h : ∀ k, x k ≤ y k) : vecMax x ≤ vecMax y :=
  sup'_le _ _ fun k _ => (h k).trans (le_vecMax y k)

theorem vecMin_mono {x y : Fin (n + 1) → ℝ} (h : ∀ k, x k ≤ y k) : vecMin x ≤ vecMin y :=
  le_inf' _ _ fun k _ => (vecMin_le x k).trans (h k)

theorem le_vecMin {x : Fin (n + 1) → ℝ} {c : ℝ} (h : ∀ k, c ≤ x k) : c ≤ vecMin x :=
  le_inf' _ _ fun k _ => h k

theorem vecMax_le {x : Fin (n + 1) → ℝ} {c : ℝ} (h : ∀ k, x k ≤ c) : vecMax x ≤ c :=
  sup'_le _ _ fun k _ => h k

theorem exists_eq_vecMax (x : Fin (n + 1) → ℝ) : ∃ k, vecMax x = x k := by
  obtain ⟨k, -, h⟩ := exists_mem_eq_sup' univ_nonempty x
  exact ⟨k, h⟩

theorem sumWeights_spec {r w : Fin (n + 1) → ℝ} (hr : ∀ k, 0 ≤ r k) (h : sumWeights r = some w) :
    (∀ k, 0 ≤ w k) ∧ ∑ k, w k = 1 := by
  unfold sumWeights at h
  split at h
  · cases h
  · next hs =>
    cases h
    have hp : 0 ≤ ∑ j, r j := sum_nonneg fun k _ => hr k
    exact ⟨fun k => div_nonneg (hr k) hp, by rw [← sum_div, div_self hs]⟩

theorem maxWeights_spec {r w : Fin (n + 1) → ℝ} (hr : ∀ k, 0 ≤ r k) (h : maxWeights r = some w) :
    (∀ k, 0 ≤ w k ∧ w k ≤ 1) ∧ ∃ k, w k = 1 := by
  unfold maxWeights at h
  split at h
  · cases h
  · next hs =>
    cases h
    have habs : ∀ k, |r k| = r k := fun k => abs_of_nonneg (hr k)
    have hp : 0 < vecMax fun k => |r k| :=
      lt_of_le_of_ne ((abs_nonneg _).trans (le_vecMax (fun k => |r k|) 0)) (Ne.symm hs)
    refine ⟨fun k => ⟨div_nonneg (hr k) hp.le, (div_le_one hp).2 ?_⟩, ?_⟩
    · exact (le_abs_self _).trans (le_vecMax (fun k => |r k|) k)
    · obtain ⟨k, hk⟩ := exists_eq_vecMax fun k => |r k|
      refine ⟨k, ?_⟩
      rw [hk, habs]
      rw [hk, habs] at hs
      exact div_self hs

end Lop
