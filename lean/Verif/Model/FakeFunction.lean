import Verif.Model.Basic
import Mathlib.Analysis.SpecialFunctions.Pow.Real
import Mathlib.Data.Real.Sqrt
import Mathlib.Algebra.BigOperators.Fin

/-! # Model of the synthetic utility functions `src/lop/utilities/FakeFunction.py`

Floats are idealised to real numbers, `nan` to `none`. The dimension is `n + 1`; `row` functions take one
reward vector (`(M,)` array), `batch` functions a matrix (`(N, M)` array). For dimension one the code
returns arrays of another shape (and for Python lists takes another path); the model keeps the values
of the array path. -/

namespace Lop

open Finset

noncomputable section

variable {n : Nat}

/-- Largest entry (`np.max`). -/
def vecMax (x : Fin (n + 1) → ℝ) : ℝ := univ.sup' univ_nonempty x

/-- Smallest entry (`np.min`). -/
def vecMin (x : Fin (n + 1) → ℝ) : ℝ := univ.inf' univ_nonempty x

/-- `w / np.sum(w)` (`FakeFunction.py:51-53,76-78`, and `:192-193` with the 1-norm of non-negative draws):
all draws zero gives `nan`. -/
def sumWeights (r : Fin (n + 1) → ℝ) : Option (Fin (n + 1) → ℝ) :=
  if ∑ k, r k = 0 then none else some fun k => r k / ∑ j, r j

/-- `w / np.linalg.norm(w, ord=np.inf)` (`FakeFunction.py:140-142,167-169`). -/
def maxWeights (r : Fin (n + 1) → ℝ) : Option (Fin (n + 1) → ℝ) :=
  if vecMax (fun k => |r k|) = 0 then none else some fun k => r k / vecMax fun k => |r k|

/-- `FakeLinear.calc` of one vector (`FakeFunction.py:55-63`). -/
def fakeLinear (w x : Fin (n + 1) → ℝ) : ℝ := ∑ k, x k * w k

/-- `FakeSquared.calc` of one vector (`FakeFunction.py:80-89`). -/
def fakeSquared (w x : Fin (n + 1) → ℝ) : ℝ := ∑ k, x k * x k * w k

/-- Parameters of `FakeLogistic` (`FakeFunction.py:97-113`). -/
structure LogisticParams (n : Nat) where
  w : Fin (n + 1) → ℝ
  A : ℝ
  K : ℝ
  C : ℝ
  Q : ℝ
  M : ℝ
  v : ℝ

/-- `FakeLogistic.randomize` (`FakeFunction.py:102-113`) with draws `r`, `q`, `m`, `s` from [0,1). -/
def logisticRandomize (r : Fin (n + 1) → ℝ) (q m s : ℝ) : LogisticParams n :=
  { w := fun k => r k * 1.5, A := 0, K := 1, C := 1, Q := (q * 2) ^ 2 + 1.2, M := m * 1.5, v := s + 2 }

/-- `FakeLogistic.calc` of one vector (`FakeFunction.py:115-124`): the offset `M` is not used in dimension
one. -/
def fakeLogistic (p : LogisticParams n) (x : Fin (n + 1) → ℝ) : ℝ :=
  let wx := if n = 0 then x 0 * p.w 0 else (∑ k, x k * p.w k) - p.M
  p.A + (p.K - p.A) / (p.C + p.Q * Real.exp (-wx) ^ (1 / p.v))

/-- `FakeWeightedMax.calc` of one vector (`FakeFunction.py:144-152`). In dimension one the code returns the
reward itself. -/
def fakeMax (w x : Fin (n + 1) → ℝ) : ℝ := if n = 0 then x 0 else vecMax fun k => x k * w k

/-- `FakeWeightedMin.calc` of one vector (`FakeFunction.py:171-179`). -/
def fakeMin (w x : Fin (n + 1) → ℝ) : ℝ := if n = 0 then x 0 else vecMin fun k => x k * w k

/-- `FakeSquaredMinMax.calc` of one vector (`FakeFunction.py:198-205`): only the weighted maximum. -/
def fakeSqMinMaxRow (w x : Fin (n + 1) → ℝ) : ℝ := if n = 0 then x 0 else vecMax fun k => x k * w k

/-- `FakeSquaredMinMax.calc`, one row of a matrix (`FakeFunction.py:198-208`); the root of a negative number
is `nan`. -/
def fakeSqMinMaxBatch (w x : Fin (n + 1) → ℝ) : Option ℝ :=
  if n = 0 then some (x 0)
  else if vecMax (fun k => x k * w k) < 0 then none
  else some (Real.sqrt (vecMax fun k => x k * w k) + (vecMin fun k => x k * w k) * vecMin fun k => x k * w k)

/-- What `calc` of `FakeWeightedMax` / `FakeSquaredMinMax` returns in dimension one for a Python list of
rewards (`FakeFunction.py:145-151,199-205`): the list becomes an array, which then is treated as a single
vector. -/
def fakeMaxList (w0 : ℝ) : List ℝ → Except PyErr ℝ
  | [] => .error .valueError
  | x :: xs => .ok (xs.foldl (fun m y => max m (y * w0)) (x * w0))

/-- The same for an ndarray (`FakeFunction.py:149,203`): returned unchanged. -/
def fakeMaxArray (xs : List ℝ) : List ℝ := xs

/-- `FakeMinLog.calc` of one vector (`FakeFunction.py:316-320`). -/
def fakeMinLog (alpha : ℝ) (w : Fin (n + 1) → ℝ) (p : LogisticParams n) (x : Fin (n + 1) → ℝ) : ℝ :=
  alpha * fakeMin w x + (1 - alpha) * fakeLogistic p x

/-- `FakeIntegrate.calc`, one row of a matrix (`FakeFunction.py:350-351`): the integrated function is not
used. -/
def fakeIntegrate (_vals : List (List ℝ)) (x : Fin (n + 1) → ℝ) : ℝ := x 0

end

end Lop
