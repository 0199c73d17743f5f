import Verif.Model.Basic
import Mathlib.Data.List.Dedup
import Mathlib.Algebra.Order.Field.Basic
import Mathlib.Data.List.MinMax
import Mathlib.Data.List.Sort

/-! # Model of `src/lop/utilities/training_utility.py` -/

namespace Lop

/-! ## k-fold splitting -/

/-- Random oracle of `k_fold_x_y`: `draw t n` is the `t`-th `np.random.randint(0, n)`;
`shuffle t l` is the `t`-th result of `list(set)` followed by `random.shuffle`
(`training_utility.py:60,64,75`). -/
structure FoldRng where
  draw : Nat → Nat → Nat
  shuffle : Nat → List Nat → List Nat

/-- Contract of the random functions: draws are in range, shuffles are permutations. -/
structure FoldRng.Valid (r : FoldRng) : Prop where
  draw_lt : ∀ t n, 0 < n → r.draw t n < n
  shuffle_perm : ∀ t l, (r.shuffle t l).Perm l

/-- The other endpoints of pairs touching `i`, without repeats: the set `conn[i]`
(`training_utility.py:53-56`).  The iteration order of the set is left to the shuffle oracle. -/
def neighbours (pairs : List Pair) (i : Nat) : List Nat :=
  (pairs.flatMap fun p =>
    (if p.u = i then [p.v] else []) ++ (if p.v = i then [p.u] else [])).dedup

/-- Inner loop (`training_utility.py:79-86`): add connected points to the chosen split until it is
full. `remaining.remove(shuf_idx)` raises `ValueError` if the element is missing. -/
def fillSplit (maxSize : Nat) : List Nat → List Nat → List Nat → List Nat →
    Except PyErr (List Nat × List Nat × List Nat)
  | [], split, selected, remaining => .ok (split, selected, remaining)
  | s :: rest, split, selected, remaining =>
      if split.length ≥ maxSize then .ok (split, selected, remaining)
      else if s ∈ selected then fillSplit maxSize rest split selected remaining
      else if s ∈ remaining then
        fillSplit maxSize rest (split ++ [s]) (s :: selected) (remaining.erase s)
      else .error .valueError

/-- Outer loop (`training_utility.py:63-86`).  The first argument is fuel; `k_fold_x_y` starts it
with `N`, and the theorems show that it is never exhausted with points remaining. -/
def foldLoop (rng : FoldRng) (pairs : List Pair) (maxSize : Nat) :
    Nat → Nat → List (List Nat) → List Nat → List Nat → Except PyErr (List (List Nat))
  | _, _, splits, _, [] => .ok splits
  | 0, _, _, _, _ :: _ => .error .exception
  | fuel + 1, t, splits, selected, r :: rs => do
      let remaining := r :: rs
      match remaining[rng.draw t remaining.length]? with
      | none => .error .indexError
      | some idx =>
        let remaining := remaining.erase idx
        let selected := idx :: selected
        let splitIdx ← npArgmin (splits.map List.length)
        match splits[splitIdx]? with
        | none => .error .indexError
        | some split =>
          let (split', selected', remaining') ←
            fillSplit maxSize (rng.shuffle t (neighbours pairs idx)) (split ++ [idx]) selected remaining
          foldLoop rng pairs maxSize fuel (t + 1) (splits.set splitIdx split') selected' remaining'

/-- `k_fold_x_y(X, y, k)` (`training_utility.py:37-91`) for `N = X.shape[0]` and `y[0] = pairs`
(`None` = no pairs).  `k` is a natural number (negative `k` not modelled); `.ok none` is Python's
`return None`.  Pair indices `≥ N` raise `IndexError` at lines 55-56. -/
def kFold (rng : FoldRng) (N : Nat) (pairs : Option (List Pair)) (k : Nat) :
    Except PyErr (Option (List (List Nat))) :=
  let k' := if k > N / 2 then N / 2 else k
  if k > N / 2 ∧ k' < 2 then .ok none
  else if k' = 0 then .error .zeroDivision
  else
    let maxSize := (N + k' - 1) / k'
    let ps := pairs.getD []
    if ps.any (fun p => p.u ≥ N ∨ p.v ≥ N) then .error .indexError
    else do
      let splits ← foldLoop rng ps maxSize N 0 (List.replicate k' []) [] (List.range N)
      return some (splits.map fun s => s.insertionSort (· ≤ ·))

/-! ## Restricting labels to a subset of the points -/

/-- The three label containers `y[0], y[1], y[2]` (`PreferenceModel.py:44-61`): preference pairs,
ordinal ratings and absolute ratings.  A rating container `(values, indices)` of two parallel arrays
is modelled as a list of (value, index). -/
structure Labels (α : Type*) where
  rel : Option (List Pair) := none
  ord : Option (List (Int × Nat)) := none
  abs : Option (List (α × Nat)) := none

/-- `idx_mapping` (`training_utility.py:96-98`): built by successive assignment, so the last
occurrence of a repeated index wins. Entries are (index, position). -/
def idxMapping (indicies : List Nat) : List (Nat × Nat) :=
  (indicies.zipIdx).foldl (fun m (a, i) => (a, i) :: m) []

/-- Pair part (`training_utility.py:102-110`); `idx_mapping[...]` cannot raise because of the
preceding membership test, the model drops the pair in that impossible case. -/
def restrictPairs (indicies : List Nat) (ps : List Pair) : Option (List Pair) :=
  let m := idxMapping indicies
  let new := ps.filterMap fun p =>
    if p.u ∈ indicies ∧ p.v ∈ indicies then
      match m.lookup p.u, m.lookup p.v with
      | some u', some v' => some ⟨p.dk, u', v'⟩
      | _, _ => none
    else none
  if new.isEmpty then none else some new

/-- Rating part, identical for `y[1]` (`training_utility.py:113-122`) and `y[2]` (`124-133`). -/
def restrictRatings {β : Type*} (indicies : List Nat) (rs : List (β × Nat)) : Option (List (β × Nat)) :=
  let m := idxMapping indicies
  let new := rs.filterMap fun r =>
    if r.2 ∈ indicies then (m.lookup r.2).map fun i => (r.1, i) else none
  if new.isEmpty then none else some new

/-- `get_y_with_idx(y, indicies)` (`training_utility.py:93-136`). -/
def getYWithIdx {α : Type*} (y : Labels α) (indicies : List Nat) : Labels α where
  rel := y.rel.bind (restrictPairs indicies)
  ord := y.ord.bind (restrictRatings indicies)
  abs := y.abs.bind (restrictRatings indicies)

/-! ## Normalisation -/

section Normalize
variable {K : Type*} [Field K] [LinearOrder K]

/-- `normalize_0_1(x, eps)` (`training_utility.py:145-149`) over an ordered field;
`np.max`/`np.min` of an empty array raise `ValueError`.  A zero denominator (only possible for
constant `x` and `eps = 0`, or negative `eps`) is the field's `1/0 = 0` here but `inf`/`nan` in NumPy;
the theorems require `eps > 0`. -/
def normalize01 (x : List K) (eps : K) : Except PyErr (List K) :=
  match x with
  | [] => .error .valueError
  | a :: as =>
    let mx := as.foldl max a
    let mn := as.foldl min a
    let slope := 1 / (mx - mn + 2 * eps)
    .ok ((a :: as).map fun xi => (xi - mn + eps) * slope)

end Normalize

end Lop
