import Verif.Model.Basic
import Mathlib.Data.Fintype.Basic
import Mathlib.Data.Fin.Basic
import Mathlib.Data.Fintype.Defs
import Mathlib.Tactic.Linarith

/-! # Model of `src/lop/utilities/pareto.py` -/

namespace Lop

variable {α : Type*} [LinearOrder α] {d : Nat}

/-- NumPy boolean-mask indexing `l[mask]` (`pareto.py:43-44`). -/
def applyMask {β : Type*} : List Bool → List β → List β
  | b :: bs, x :: xs => if b then x :: applyMask bs xs else applyMask bs xs
  | _, _ => []

/-- `nondominated_point_mask` with the pivot entry forced to `True` (`pareto.py:41-42`);
`np.any(values > values[pivot], axis=1)` row by row. -/
def paretoMask (vals : List (Fin d → α)) (next : Nat) (pivot : Fin d → α) : List Bool :=
  vals.mapIdx fun i v => if i = next then true else decide (∃ k, v k > pivot k)

theorem length_paretoMask (vals : List (Fin d → α)) (next : Nat) (pivot : Fin d → α) :
    (paretoMask vals next pivot).length = vals.length := by simp [paretoMask]

theorem length_applyMask {β : Type*} (m : List Bool) (l : List β) (h : m.length = l.length) :
    (applyMask m l).length = m.count true := by
  induction m generalizing l with
  | nil => rfl
  | cons b bs ih =>
    cases l with
    | nil => simp at h
    | cons x xs =>
      simp only [List.length_cons, Nat.add_right_cancel_iff] at h
      cases b <;> simp [applyMask, ih xs h]

/-- The loop of `get_pareto` (`pareto.py:39-45`) on `is_efficient`, `values` and
`next_point_index`. -/
def paretoLoop (eff : List Nat) (vals : List (Fin d → α)) (next : Nat) : List Nat :=
  if h : next < vals.length then
    let mask := paretoMask vals next vals[next]
    paretoLoop (applyMask mask eff) (applyMask mask vals) ((mask.take next).count true + 1)
  else eff
  termination_by vals.length - next
  decreasing_by
    rw [length_applyMask _ _ (length_paretoMask _ _ _)]
    set m := paretoMask vals next vals[next] with hm
    have hl : m.length = vals.length := length_paretoMask _ _ _
    have hsplit : m.count true = (m.take next).count true + (m.drop next).count true := by
      rw [← List.count_append, List.take_append_drop]
    have hdrop : (m.drop next).count true ≤ vals.length - next := by
      refine List.count_le_length.trans ?_
      simp [hl]
    omega

/-- `get_pareto(values)` without `return_mask` (`pareto.py:36-51`).  Rows all have dimension `d`;
entries come from a linear order (no NaN). -/
def getPareto (vals : List (Fin d → α)) : List Nat :=
  paretoLoop (List.range vals.length) vals 0

/-- `get_pareto(values, return_mask=True)` (`pareto.py:46-49`). -/
def getParetoMask (vals : List (Fin d → α)) : List Bool :=
  (List.range vals.length).map fun i => decide (i ∈ getPareto vals)

end Lop
