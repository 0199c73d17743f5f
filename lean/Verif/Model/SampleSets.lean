import Verif.Model.Basic
import Mathlib.Data.List.Lex
import Mathlib.Data.List.Sort
import Mathlib.Data.List.Dedup
import Mathlib.Data.Nat.Choose.Basic
import Mathlib.Data.Rat.Floor

/-! # Model of `src/lop/utilities/sample_utility.py` and of the request sizes of its callers -/

namespace Lop

variable {α : Type*} [LinearOrder α]

/-- `np.unique(rows, axis=0)`: rows without repeats in lexicographic order
(`sample_utility.py:35`). -/
def uniqueRows (rows : List (List α)) : List (List α) := rows.dedup.insertionSort (· ≤ ·)

/-- `int((num_sets - num_unique) * 1.2)` (`sample_utility.py:28`) in exact arithmetic
(the float product may differ from the exact one only by rounding). -/
def toSample (numSets numUnique : Nat) : Nat := (numSets - numUnique) * 12 / 10

/-- One pass of the loop body (`sample_utility.py:28-37`): draw `to_sample` rows
(`sample_nonunique_sets`, lines 10-16), sort each row, merge and deduplicate. `draw i` is the `i`-th
`np.random.choice(s, size_set, replace=False)` of this pass.  NumPy stores the rows as floats;
the model keeps the exact values. -/
def samplePass (draw : Nat → List α) (numSets : Nat) (uniq : List (List α)) : List (List α) :=
  uniqueRows (uniq ++ (List.range (toSample numSets uniq.length)).map
    fun i => (draw i).insertionSort (· ≤ ·))

/-- `sample_unique_sets_fast` (`sample_utility.py:22-39`) with the while loop cut off after `fuel`
passes: `.ok none` means "still running", `.ok (some rows)` is the returned value.
`rng t i` is the `i`-th draw of pass `t`.  Drawing more elements than `s` has without replacement
raises `ValueError`. -/
def sampleUniqueLoop (s : List α) (rng : Nat → Nat → List α) (numSets size : Nat) :
    Nat → Nat → List (List α) → Except PyErr (Option (List (List α)))
  | fuel, t, uniq =>
    if uniq.length < numSets then
      match fuel with
      | 0 => .ok none
      | fuel + 1 =>
        if s.length < size then .error .valueError
        else sampleUniqueLoop s rng numSets size fuel (t + 1) (samplePass (rng t) numSets uniq)
    else .ok (some (uniq.take numSets))

/-- `sample_unique_sets(s, num_sets, size_set)` (`sample_utility.py:51-59`) after `fuel` passes; the
final `astype(int)` is the identity on integer-valued rows.  An integer argument `s` means
`np.arange(s)`. -/
def sampleUniqueSets (s : List α) (rng : Nat → Nat → List α) (numSets size fuel : Nat) :
    Except PyErr (Option (List (List α))) :=
  sampleUniqueLoop s rng numSets size fuel 0 []

/-- Contract of `np.random.choice(s, size, replace=False)`: `size` entries of `s` at different
positions, in any order. -/
def ChoiceNoReplace (s : List α) (size : Nat) (row : List α) : Prop :=
  row.length = size ∧ row.Subperm s

/-- Number of queries requested by `get_representative_Q`, method 'sampled'
(`src/lop/active_learning/AcquisitionBase.py:95`). -/
def repNumQ (numQ N numAlts : Nat) : Nat := min numQ (N.choose numAlts)

/-- Number of queries requested by `HumanChoiceUser.sample_Qs`
(`src/lop/utilities/synthetic_user.py:159-162`) for `C = comb(len(rewards), Q_size)`. -/
def sampleQsCount (C : Nat) : Nat :=
  let q : ℚ := min ((C : ℚ) * (1 / 2)) 60000
  let q := if q < 30 then min 30 (C : ℚ) else q
  ⌊q⌋₊

end Lop
