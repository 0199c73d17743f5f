import Verif.Model.Basic
import Mathlib.Data.Real.Archimedean
import Mathlib.Algebra.Order.Round
import Mathlib.Data.Int.Log
import Mathlib.Data.List.Perm.Basic
import Mathlib.Algebra.Ring.Int.Parity

/-! # Floating-point arithmetic

The other models compute with real numbers. Here every operation of the code is followed by a rounding. `FloatArith`
collects what is used about the rounding; `round64` is the one of IEEE 754 binary64 (`float`, `np.float64`), and
`Proofs/Float.lean` shows that it has these properties. Infinite results are not represented: a result above the largest
finite number is replaced by that number, which the theorems either exclude or which gives the same further results
(`exp` of both `-inf` and the smallest number is 0). There is no NaN because no operation with an invalid result occurs. -/

namespace Lop

/-- Rounding to the nearest integer, ties to even (IEEE 754, `roundTiesToEven`). -/
noncomputable def rne (z : ℝ) : ℤ :=
  if Int.fract z < 1 / 2 then ⌊z⌋
  else if 1 / 2 < Int.fract z then ⌊z⌋ + 1
  else if Even ⌊z⌋ then ⌊z⌋ else ⌊z⌋ + 1

/-- Exponent of the binade of a positive number, at least -1022 (below are the subnormal numbers). -/
noncomputable def binExp (x : ℝ) : ℤ := max (Int.log 2 x) (-1022)

/-- Largest finite binary64 number. -/
noncomputable def maxFinite : ℝ := (2 ^ 53 - 1) * 2 ^ 971

/-- Rounding of a nonnegative number to binary64: 53 significant bits. -/
noncomputable def round64Pos (x : ℝ) : ℝ :=
  min maxFinite (rne (x / 2 ^ (binExp x - 52)) * 2 ^ (binExp x - 52))

/-- Rounding to binary64. -/
noncomputable def round64 (x : ℝ) : ℝ := if 0 ≤ x then round64Pos x else -round64Pos (-x)

/-- What is used about the arithmetic. A number is representable if `rnd` does not change it. -/
structure FloatArith where
  rnd : ℝ → ℝ
  mono : Monotone rnd
  neg : ∀ x, rnd (-x) = -rnd x
  idem : ∀ x, rnd (rnd x) = rnd x
  nat : ∀ n : Nat, n ≤ 2 ^ 53 → rnd n = n
  err : ∀ x, |x| ≤ 2 ^ 1023 → |rnd x - x| ≤ |x| / 2 ^ 53 + 1 / 2 ^ 1075
  err_add : ∀ x y, rnd x = x → rnd y = y → |x + y| ≤ 2 ^ 1023 → |rnd (x + y) - (x + y)| ≤ |x + y| / 2 ^ 53

/-- A sum in floating-point arithmetic: the summands in some order, added with some bracketing. -/
inductive FSum (A : FloatArith) : List ℝ → ℝ → Prop
  | nil : FSum A [] 0
  | single (x : ℝ) : FSum A [x] x
  | node {l l₁ l₂ : List ℝ} {s₁ s₂ : ℝ} : l.Perm (l₁ ++ l₂) → l₁ ≠ [] → l₂ ≠ [] → FSum A l₁ s₁ → FSum A l₂ s₂ →
      FSum A l (A.rnd (s₁ + s₂))

/-- `np.sum` along an axis: some order and bracketing, the same whenever the summands are the same list. -/
structure NpSum (A : FloatArith) where
  sum : List ℝ → ℝ
  isSum : ∀ l, FSum A l (sum l)

/-- What is used about `np.exp`: representable values, order, 1 at 0. -/
structure NpExp (A : FloatArith) where
  exp : ℝ → ℝ
  mono : Monotone exp
  zero : exp 0 = 1
  nonneg : ∀ x, 0 ≤ exp x
  repr : ∀ x, A.rnd (exp x) = exp x

end Lop
