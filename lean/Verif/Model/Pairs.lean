import Verif.Model.Basic
import Mathlib.Data.List.FinRange

/-! # Model of `src/lop/utilities/preference_pairs.py` -/

namespace Lop

variable {α : Type*} [LinearOrder α]

/-- A Python argument of `get_dk`: a scalar, or a sequence / ndarray. -/
inductive PyArg (α : Type*)
  | scalar (a : α)
  | sequence
  deriving DecidableEq, Repr

/-- The scalar part of `get_dk` (`preference_pairs.py:42-47`).  Scalars come from a linear order, so
NaN is not modelled (Python would fall through both comparisons and return -1). -/
def getDkScalar (u v : α) : Int :=
  if u > v then -1
  else if u < v then 1
  else -1

/-- `get_dk(u, v)` (`preference_pairs.py:38-47`), including the `TypeError` for sequences. -/
def getDk : PyArg α → PyArg α → Except PyErr Int
  | .sequence, _ => .error .typeError
  | _, .sequence => .error .typeError
  | .scalar u, .scalar v => .ok (getDkScalar u v)

/-- `preference(u_idx, v_idx)` (`preference_pairs.py:55-56`). -/
def preference (u v : Nat) : Pair := ⟨getDkScalar (1 : Int) 0, u, v⟩

/-- `gen_pairs_from_idx(best_idx, indicies)` (`preference_pairs.py:66-72`). -/
def genPairsFromIdx (best : Nat) : List Nat → List Pair
  | [] => []
  | idx :: rest =>
      if idx ≠ best then preference best idx :: genPairsFromIdx best rest
      else genPairsFromIdx best rest

/-- `ranked_pairs_from_fake(X, fake_f)` (`preference_pairs.py:77-87`) as a function of
`y = fake_f(X)`; the unused `argsort` is dropped.  `range(i+1, len(y))` is written as the indices
of `range(len(y))` above `i`. -/
def rankedPairsFromFake (y : List α) : List Pair :=
  (List.finRange y.length).flatMap fun i =>
    ((List.finRange y.length).filter (fun j => i < j)).map fun j =>
      ⟨getDkScalar (y.get i) (y.get j), i, j⟩

/-- `generate_fake_pairs(X, real_f, pair_i)` (`preference_pairs.py:94-98`) as a function of
`Y = real_f(X)`.  `Y[pair_i]` raises `IndexError` when it is evaluated out of range, i.e. as soon
as there is any point; on an empty `Y` the comprehension body never runs. -/
def generateFakePairs (y : List α) (pairI : Nat) : Except PyErr (List Pair) :=
  match y[pairI]? with
  | some yi =>
      .ok (((List.finRange y.length).filter (fun i => i.val ≠ pairI)).map fun i =>
        ⟨getDkScalar yi (y.get i), pairI, i⟩)
  | none => if y.isEmpty then .ok [] else .error .indexError

/-- The double loop of `generate_ranking_pairs` (`preference_pairs.py:110-113`): for every position
`i` of the descending order all later positions `j` lose to it. -/
def rankingPairsLoop : List Nat → List Pair
  | [] => []
  | idx1 :: rest => rest.map (fun idx2 => ⟨getDkScalar (1 : Int) 0, idx1, idx2⟩) ++ rankingPairsLoop rest

/-- `generate_ranking_pairs(X, real_f)` (`preference_pairs.py:104-115`).  `sortedIdx` is the
result of `np.argsort(real_y)[::-1]` (an oracle, the order of ties is unspecified).  The function
builds `pairs` but has no `return` statement: the caller receives `None`. -/
def generateRankingPairs (sortedIdx : List Nat) : Option (List Pair) :=
  let _pairs := rankingPairsLoop sortedIdx
  none

end Lop
