import Mathlib.Order.Defs.LinearOrder
import Mathlib.Data.List.Basic

/-!
# Shared vocabulary of the model

Python exceptions as values, NumPy `argmax`/`argmin`, and the label types of `lop`.
-/

namespace Lop

/-- The Python exceptions raised by the modelled code, by class. -/
inductive PyErr
  | typeError | valueError | indexError | keyError | zeroDivision
  | unboundLocal | attributeError | notImplemented | exception
  /-- not a Python exception: the execution leaves what the model can represent -/
  | outsideModel
  deriving DecidableEq, Repr

/-- The label types accepted by `PreferenceModel.add`
(`src/lop/models/PreferenceModel.py:44-61`, the keys of `probit_idxs`). -/
inductive LabelType
  | relativeDiscrete | ordinal | abs
  deriving DecidableEq, Repr

/-- A preference pair `(dk, u, v)` (`src/lop/utilities/preference_pairs.py:33-37`).
Indices are natural numbers; Python's negative (wrap-around) indices are not modelled. -/
structure Pair where
  dk : Int
  u : Nat
  v : Nat
  deriving DecidableEq, Repr

/-- Position and value of the first maximum, scanning left to right: what `np.argmax` does on the
non-empty list `x :: xs` (`acc` = best value so far at position `best`, `i` = next position). -/
def argmaxFrom {α : Type*} [LinearOrder α] : List α → Nat → Nat → α → Nat
  | [], _, best, _ => best
  | y :: ys, i, best, acc =>
      if acc < y then argmaxFrom ys (i + 1) i y else argmaxFrom ys (i + 1) best acc

/-- `np.argmax` of a 1-D array without NaN: first index of the largest entry, `ValueError` on an
empty array (used e.g. in `src/lop/models/Model.py:76`). -/
def npArgmax {α : Type*} [LinearOrder α] : List α → Except PyErr Nat
  | [] => .error .valueError
  | x :: xs => .ok (argmaxFrom xs 1 0 x)

/-- Mirror image of `argmaxFrom` for `np.argmin`. -/
def argminFrom {α : Type*} [LinearOrder α] : List α → Nat → Nat → α → Nat
  | [], _, best, _ => best
  | y :: ys, i, best, acc =>
      if y < acc then argminFrom ys (i + 1) i y else argminFrom ys (i + 1) best acc

/-- `np.argmin` of a 1-D array without NaN: first index of the smallest entry, `ValueError` on an
empty array (used e.g. in `src/lop/utilities/training_utility.py:71`). -/
def npArgmin {α : Type*} [LinearOrder α] : List α → Except PyErr Nat
  | [] => .error .valueError
  | x :: xs => .ok (argminFrom xs 1 0 x)

end Lop
