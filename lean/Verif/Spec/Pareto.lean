import Mathlib.Order.Basic
import Mathlib.Data.Fin.Basic
import Mathlib.Order.Defs.LinearOrder

/-! # Specification: Pareto dominance -/

namespace Lop.Spec

variable {α : Type*} [LinearOrder α] {d : Nat}

/-- `b` is at least as good as `a` in every objective. -/
def WeaklyDominatedBy (a b : Fin d → α) : Prop := ∀ k, a k ≤ b k

/-- `b` is at least as good as `a` in every objective and better in one. -/
def DominatedBy (a b : Fin d → α) : Prop := (∀ k, a k ≤ b k) ∧ ∃ k, a k < b k

/-- Point `i` belongs to the Pareto front of `vals` with identical points represented by their first
occurrence. -/
def OnFront (vals : List (Fin d → α)) (i : Nat) : Prop :=
  ∃ v, vals[i]? = some v ∧ (∀ w ∈ vals, ¬ DominatedBy v w) ∧ (∀ j < i, vals[j]? ≠ some v)

end Lop.Spec
