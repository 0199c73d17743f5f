import Mathlib.LinearAlgebra.Matrix.PosDef
import Mathlib.LinearAlgebra.Matrix.NonsingularInverse
import Mathlib.Data.Real.Basic

/-! # Specification vocabulary for the generalised variance

A family of points is given by a function `e` from its index type; `c a b` is the covariance of two
candidates. -/

namespace Lop.Spec

open Matrix

variable {ι : Type*} [Fintype ι] [DecidableEq ι]

/-- The family of the candidates in a list. -/
def famOf (l : List Nat) (a : Fin l.length) : Nat := l[a]

/-- The covariance matrix of a family of candidates. -/
def famCov (c : Nat → Nat → ℝ) (e : ι → Nat) : Matrix ι ι ℝ := Matrix.of fun a b => c (e a) (e b)

/-- `c` is a covariance function on the candidates `0..N-1`: symmetric, and every linear combination has
non-negative variance. -/
def IsCov (N : Nat) (c : Nat → Nat → ℝ) : Prop :=
  (∀ a < N, ∀ b < N, c a b = c b a) ∧
    ∀ w : Fin N → ℝ, 0 ≤ ∑ a, ∑ b, w a * w b * c a b

/-- `s` is the standardised generalised variance of a family: the non-negative number whose power, with the
number of points as exponent, is the determinant of the covariance matrix. -/
def IsSGV (c : Nat → Nat → ℝ) (e : ι → Nat) (s : ℝ) : Prop :=
  0 ≤ s ∧ s ^ Fintype.card ι = (famCov c e).det

/-- The variance of candidate `i` that is left once the values of the family are known. -/
noncomputable def condVariance (c : Nat → Nat → ℝ) (e : ι → Nat) (i : Nat) : ℝ :=
  c i i - (fun a => c i (e a)) ⬝ᵥ ((famCov c e)⁻¹ *ᵥ fun a => c (e a) i)

end Lop.Spec
