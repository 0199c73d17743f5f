import Verif.Proofs.Pareto
import Mathlib.Data.Fin.VecNotation
import Mathlib.Tactic.IntervalCases

/-! # C05, C06: the Pareto filter -/

namespace Lop.Props

open Lop Lop.Spec

variable {α : Type*} [LinearOrder α] {d : Nat}

/-- C05: `get_pareto` returns exactly the Pareto front (identical points represented once, by
their first occurrence). -/
theorem C05_get_pareto_exact (vals : List (Fin d → α)) (i : Nat) :
    i ∈ getPareto vals ↔ OnFront vals i := by
  obtain ⟨fin, hinv, heq⟩ := getPareto_inv vals
  have hfinsub : ∀ p ∈ fin, vals[p.1]? = some p.2 := fun p hp =>
    mem_indexed.mp (hinv.sub.subset (by simpa using hp))
  rw [heq]
  constructor
  · intro hi
    obtain ⟨p, hp, rfl⟩ := List.mem_map.mp hi
    -- nothing in the original list makes `p` redundant
    have hno : ∀ q ∈ indexed vals, ¬ Redundant p q := by
      intro q hq hr
      have : ∃ r ∈ fin, Redundant p r := by
        by_cases hqf : q ∈ fin
        · exact ⟨q, hqf, hr⟩
        · obtain ⟨r, hr', h⟩ := hinv.gone q hq (by simpa using hqf)
          exact ⟨r, by simpa using hr', hr.trans h⟩
      obtain ⟨r, hrf, hpr⟩ := this
      have hne : p ≠ r := by rintro rfl; exact Redundant.irrefl _ hpr
      exact hinv.done r hrf p (by simpa using hp) hne hpr.1
    refine ⟨p.2, hfinsub p hp, ?_, ?_⟩
    · rintro w hw ⟨h1, k, h2⟩
      obtain ⟨j, hj⟩ := List.mem_iff_getElem?.mp hw
      refine hno (j, w) (mem_indexed.mpr hj) ⟨h1, Or.inl ?_⟩
      intro he
      have : p.2 k = w k := by rw [he]
      exact absurd h2 (by rw [this]; exact lt_irrefl _)
    · intro j hj hv
      exact hno (j, p.2) (mem_indexed.mpr hv) ⟨le_refl _, Or.inr hj⟩
  · rintro ⟨v, hv, hdom, hfirst⟩
    by_contra hn
    have hnf : (i, v) ∉ fin := fun h => hn (List.mem_map.mpr ⟨_, h, rfl⟩)
    obtain ⟨p, hp, hle, hor⟩ := hinv.gone (i, v) (mem_indexed.mpr hv) (by simpa using hnf)
    have hp' := hfinsub p (by simpa using hp)
    by_cases he : v = p.2
    · have hlt : p.1 < i := hor.resolve_left (not_not.mpr he)
      exact hfirst p.1 hlt (he ▸ hp')
    · refine hdom p.2 (List.mem_of_getElem? hp') ⟨hle, ?_⟩
      by_contra hc
      push Not at hc
      exact he (funext fun k => le_antisymm (hle k) (hc k))

/-- C05: the indices come in strictly increasing order (in particular without repeats). -/
theorem C05_get_pareto_sorted (vals : List (Fin d → α)) : (getPareto vals).Pairwise (· < ·) := by
  obtain ⟨fin, hinv, heq⟩ := getPareto_inv vals
  rw [heq, List.pairwise_map]
  exact (indexed_sorted vals).sublist (by simpa using hinv.sub)

/-- C05: the mask form has one entry per point and marks exactly the same points. -/
theorem C05_get_pareto_mask (vals : List (Fin d → α)) :
    (getParetoMask vals).length = vals.length ∧
      ∀ i, (getParetoMask vals)[i]? = some true ↔ OnFront vals i := by
  refine ⟨by simp [getParetoMask], fun i => ?_⟩
  rw [← C05_get_pareto_exact]
  unfold getParetoMask
  rw [List.getElem?_map]
  by_cases hi : i < vals.length
  · rw [List.getElem?_range hi]; simp
  · rw [List.getElem?_eq_none (by simpa using hi)]
    simp only [Option.map_none, reduceCtorEq, false_iff]
    intro h
    obtain ⟨v, hv, _⟩ := (C05_get_pareto_exact vals i).mp h
    exact hi (List.getElem?_eq_some_iff.mp hv).1

/-- C06: every point is weakly dominated by a returned one. -/
theorem C06_discarded_points_are_dominated (vals : List (Fin d → α)) (v : Fin d → α) (hv : v ∈ vals) :
    ∃ i ∈ getPareto vals, ∃ w, vals[i]? = some w ∧ WeaklyDominatedBy v w := by
  obtain ⟨fin, hinv, heq⟩ := getPareto_inv vals
  obtain ⟨j, hj⟩ := List.mem_iff_getElem?.mp hv
  rw [heq]
  by_cases hf : (j, v) ∈ fin
  · exact ⟨j, List.mem_map.mpr ⟨_, hf, rfl⟩, v, hj, fun k => le_refl _⟩
  · obtain ⟨p, hp, hle, _⟩ := hinv.gone (j, v) (mem_indexed.mpr hj) (by simpa using hf)
    have hp' : p ∈ fin := by simpa using hp
    refine ⟨p.1, List.mem_map.mpr ⟨_, hp', rfl⟩, p.2, ?_, hle⟩
    exact mem_indexed.mp (hinv.sub.subset hp)

/-- C06: for every utility that never decreases when no objective decreases, a returned point
attains the maximum over all points. -/
theorem C06_monotone_optimum_on_front {β : Type*} [LinearOrder β] (vals : List (Fin d → α))
    (hne : vals ≠ []) (util : (Fin d → α) → β)
    (hmono : ∀ a b, WeaklyDominatedBy a b → util a ≤ util b) :
    ∃ i ∈ getPareto vals, ∃ w, vals[i]? = some w ∧ ∀ v ∈ vals, util v ≤ util w := by
  obtain ⟨m, hm, hmax⟩ : ∃ m ∈ vals, ∀ v ∈ vals, util v ≤ util m := by
    induction vals with
    | nil => simp at hne
    | cons x xs ih =>
      by_cases hxs : xs = []
      · exact ⟨x, by simp, by simp [hxs]⟩
      · obtain ⟨m, hm, h⟩ := ih hxs
        rcases le_total (util x) (util m) with hle | hle
        · exact ⟨m, by simp [hm], fun v hv => by
            rcases List.mem_cons.mp hv with rfl | hv
            · exact hle
            · exact h v hv⟩
        · exact ⟨x, by simp, fun v hv => by
            rcases List.mem_cons.mp hv with rfl | hv
            · exact le_refl _
            · exact (h v hv).trans hle⟩
  obtain ⟨i, hi, w, hw, hdom⟩ := C06_discarded_points_are_dominated vals m hm
  exact ⟨i, hi, w, hw, fun v hv => (hmax v hv).trans (hmono _ _ hdom)⟩

/-- The result is never empty on a non-empty input. -/
theorem C06_front_nonempty (vals : List (Fin d → α)) (hne : vals ≠ []) : getPareto vals ≠ [] := by
  obtain ⟨v, hv⟩ := List.exists_mem_of_ne_nil vals hne
  obtain ⟨i, hi, _⟩ := C06_discarded_points_are_dominated vals v hv
  exact List.ne_nil_of_mem hi

/-- A non-trivial case (with a duplicate and dominated points): points
(3,4) (2,3) (5,2) (3,4) (3,2) (2,7). -/
example : OnFront (α := Int) [![3, 4], ![2, 3], ![5, 2], ![3, 4], ![3, 2], ![2, 7]] 2 := by
  refine ⟨![5, 2], rfl, ?_, ?_⟩
  · intro w hw
    simp only [List.mem_cons, List.not_mem_nil, or_false] at hw
    rintro ⟨h1, k, h2⟩
    have a := h1 0
    have b := h1 1
    rcases hw with rfl | rfl | rfl | rfl | rfl | rfl <;> simp_all
  · intro j hj
    interval_cases j <;> simp

example : ¬ OnFront (α := Int) [![3, 4], ![2, 3], ![5, 2], ![3, 4], ![3, 2], ![2, 7]] 3 := by
  rintro ⟨v, hv, _, h⟩
  simp at hv
  exact h 0 (by omega) (by simp [hv])

/-- `sum` of the objectives is a utility as required by C06. -/
example : ∀ a b : Fin 2 → Int, WeaklyDominatedBy a b → a 0 + a 1 ≤ b 0 + b 1 :=
  fun _ _ h => Int.add_le_add (h 0) (h 1)

end Lop.Props
