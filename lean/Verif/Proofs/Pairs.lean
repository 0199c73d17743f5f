import Verif.Model.Pairs
import Verif.Spec.Pairs
import Mathlib.Logic.Relation
import Mathlib.Tactic.Linarith
import Mathlib.Data.List.Nodup
import Mathlib.Data.Prod.Lex
import Mathlib.Tactic.Abel

namespace Lop.Props

open Lop Lop.Spec

variable {α : Type*} [LinearOrder α]

theorem mem_ranked {y : List α} {p : Pair} :
    p ∈ rankedPairsFromFake y ↔
      ∃ i j : Fin y.length, i < j ∧ p = ⟨getDkScalar (y.get i) (y.get j), i, j⟩ := by
  unfold rankedPairsFromFake
  simp only [List.mem_flatMap, List.mem_finRange, true_and, List.mem_map, List.mem_filter,
    decide_eq_true_eq]
  constructor
  · rintro ⟨i, j, h, rfl⟩; exact ⟨i, j, h, rfl⟩
  · rintro ⟨i, j, h, rfl⟩; exact ⟨i, j, h, rfl⟩

theorem ranked_nodup_ends (y : List α) :
    ((rankedPairsFromFake y).map fun p => (p.u, p.v)).Nodup := by
  unfold rankedPairsFromFake
  rw [List.map_flatMap, List.nodup_flatMap]
  constructor
  · intro i _
    rw [List.map_map]
    refine List.Nodup.map_on ?_ ((List.nodup_finRange _).filter _)
    intro a _ b _ h
    simp only [Function.comp_apply, Prod.mk.injEq, true_and] at h
    exact Fin.ext h
  · refine List.Pairwise.imp ?_ (List.nodup_finRange y.length)
    intro a b hab
    rw [Function.onFun, List.disjoint_left]
    intro q h1 h2
    simp only [List.map_map, List.mem_map, Function.comp_apply] at h1 h2
    obtain ⟨_, _, h1⟩ := h1
    obtain ⟨_, _, h2⟩ := h2
    rw [← h1] at h2
    simp only [Prod.mk.injEq] at h2
    exact hab (Fin.ext h2.1.symm)

end Lop.Props
