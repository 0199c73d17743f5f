import Verif.Model.Select
import Mathlib.Data.Fin.VecNotation

/-! # The repository's own tests of the active learners, replayed on the model

`tests/active_learning/test_active_learner.py`, `tests/utilities/test_pareto.py`. These are tests, not proofs: they check that
the model computes what the tests of the repository expect of the code. CPython iterates over sets of small integers in
increasing order (`ordUp`). The model of the tests is `SimplelestModel` (`Model.py:134-148`): it predicts the row sums. -/

namespace Lop.Conform

open Lop

/-- Iteration order of a set of small integers. -/
def ordUp (s : Finset Nat) : List Nat := (List.range 10).filter (· ∈ s)

/-- The candidates of the tests. -/
def tri : List (Fin 3 → ℤ) := [![3, 4, 5], ![2, 3, 4], ![5, 2, 1], ![3, 4, 6], ![3, 2, 1], ![2, 7, 2]]

/-- `SimplelestModel.predict`. -/
def triMu : List ℤ := tri.map fun x => x 0 + x 1 + x 2

def row : List ℤ := [4, 6, 8, 1, 0, 2, 5]

def bestTri : Learner := bestLearner (fun _ => ordUp) triMu
def worstTri : Learner := worstLearner (fun _ => ordUp) triMu
def worstRow : Learner := worstLearner (fun _ => ordUp) row

def selTri (n : Nat) (prefer prev : Finset Nat) : Except PyErr (List Nat) :=
  learnerSelect bestTri false false none ordUp triMu n prefer prev

def retTri (n : Nat) (prefer prev : Finset Nat) : Option (Except PyErr (List Nat × List Nat)) :=
  learnerSelectRet bestTri false false none ordUp triMu n prefer prev 20

def retRow (n : Nat) (prefer prev : Finset Nat) : Option (Except PyErr (List Nat × List Nat)) :=
  learnerSelectRet worstRow true false none ordUp row n prefer prev 20

def all6 : Finset Nat := Finset.range 6

/-- `test_pareto_function1`. -/
example : getPareto tri = [2, 3, 5] := by decide +kernel

/-- `test_pareto_function2`. -/
example : getPareto [![2, 3], ![0, 0], ![4, 1]] = [0, 2] := by decide +kernel

/-- `test_active_learner_prefered_points_func`. -/
example : getPreferred false tri .none = .ok {0, 1, 2, 3, 4, 5} ∧ getPreferred false tri .pareto = .ok {2, 3, 5} ∧
    getPreferred false tri (.count 2) = .ok {0, 1} ∧ getPreferred false tri (.count 0) = .ok {0, 1, 2, 3, 4, 5} ∧
    getPreferred false tri (.pts {0, 2, 4}) = .ok {0, 2, 4} ∧ getPreferred false tri (.count (-1)) = .error .valueError ∧
    getPreferred false tri .other = .error .valueError := by decide +kernel

/-- `test_active_learning_select_best`. -/
example : selectBest ordUp [4, 6, 8, 1, 0, 2, 4] ∅ ∅ = .ok 2 ∧ selectBest ordUp [4, 6, 8, 1, 0, 2, 4] {0, 4, 5} ∅ = .ok 0 ∧
    selectBest ordUp [4, 6, 8, 1, 0, 2, 4] {0, 4, 5} {0, 4} = .ok 5 ∧
    selectBest ordUp [4, 6, 8, 1, 0, 2, 4] {0, 4, 5} {0, 4, 5, 3} = .ok 2 ∧
    selectBest ordUp [4, 6, 8, 1, 0, 2, 4] {0, 4, 5} {0, 1, 2, 3, 4, 5, 6} = .error .exception := by decide +kernel

/-- `test_select_basic`, `test_select_pareto`, `test_select_pareto_with_default`. -/
example : selTri 3 all6 ∅ = .ok [3, 0, 5] ∧ selTri 2 {2, 3, 5} ∅ = .ok [3, 5] ∧ selTri 4 {2, 3, 5} ∅ = .ok [3, 5, 2, 0] ∧
    selTri 3 {2, 3, 5} {3, 2} = .ok [5, 0, 1] ∧ selTri 4 all6 ∅ = .ok [3, 0, 5, 1] := by decide +kernel

/-- `test_always_select_best`. -/
example : learnerSelect worstTri true false none ordUp triMu 2 all6 ∅ = .ok [3, 4] := by decide +kernel

/-- `test_select_with_arbituary_prefer_pts`. -/
example : selTri 2 {1, 2} ∅ = .ok [1, 2] ∧ selTri 3 {1, 2} ∅ = .ok [1, 2, 3] ∧ selTri 3 {2, 3, 5} ∅ = .ok [3, 5, 2] := by
  decide +kernel

/-- `test_select_with_previously_selected`. -/
example : selTri 2 all6 {5, 2, 1} = .ok [3, 0] ∧ selTri 2 {0} {5, 2, 1} = .ok [0, 3] ∧
    selTri 4 {0} {5, 2, 1} = .error .exception := by decide +kernel

/-- `test_select_return_not_selected_basic`, `test_select_return_not_selected_previous_selected`. -/
example : retTri 3 all6 ∅ = some (.ok ([3, 0, 5], [])) ∧ retTri 2 all6 {5, 2, 1} = some (.ok ([3, 0], [])) := by decide +kernel

/-- `test_select_return_not_selected_with_best`. -/
example : retRow 3 (Finset.range 7) ∅ = some (.ok ([2, 4, 3], [])) ∧
    retRow 3 {2, 0, 5} ∅ = some (.ok ([2, 5, 0], [4, 3])) ∧ retRow 4 {2, 0, 5} ∅ = some (.ok ([2, 5, 0, 4], [3])) := by
  decide +kernel

/-- `test_select_return_not_selected_with_best`, continued. -/
example : retRow 2 (Finset.range 7) {2, 0, 5} = some (.ok ([4, 3], [])) ∧ retRow 2 {0, 4} {3, 6} = some (.ok ([4, 0], [5])) ∧
    retRow 3 {0, 4} {3, 6} = some (.ok ([4, 0, 5], [])) := by decide +kernel

/-- `test_select_return_not_selected_with_pareto_pref`. -/
example : retTri 3 {2, 3, 5} ∅ = some (.ok ([3, 5, 2], [0, 1])) ∧ retTri 4 {2, 3, 5} ∅ = some (.ok ([3, 5, 2, 0], [1])) ∧
    retTri 5 {2, 3, 5} ∅ = some (.ok ([3, 5, 2, 0, 1], [])) := by decide +kernel

end Lop.Conform
