import Verif.Model.FakeFunction
import Mathlib.Analysis.SpecialFunctions.Trigonometric.Basic
import Mathlib.Analysis.SpecialFunctions.Sqrt

/-! # Model of the fake functions that are not monotone, and of the table of `FakeIntegrate`

`src/lop/utilities/FakeFunction.py:216-351`. Floats are idealised to real numbers. The dimension is `n + 1`. -/

namespace Lop

open Finset

noncomputable section

variable {n : Nat}

/-- Parameters of `FakeSinExp`. -/
structure SinExpParams (n : Nat) where
  w : Fin (n + 1) → ℝ
  k : Fin (n + 1) → ℝ
  phase : ℝ

/-- `FakeSinExp.randomize` (`FakeFunction.py:224-231`) with draws from [0,1); `nan` weights are `none`. -/
def sinExpRandomize (rw rk : Fin (n + 1) → ℝ) (u : ℝ) : Option (SinExpParams n) :=
  match sumWeights rk with
  | none => none
  | some k => some ⟨rw, k, u * Real.pi⟩

/-- `FakeSinExp.calc` of one vector (`FakeFunction.py:233-243`). -/
def fakeSinExp (p : SinExpParams n) (x : Fin (n + 1) → ℝ) : ℝ :=
  Real.sin ((∑ j, x j * p.k j) + p.phase) * Real.exp (-∑ j, x j * p.w j)

/-- `scipy.stats.multivariate_normal.pdf` for a diagonal covariance matrix. -/
def diagGaussPdf (mean var x : Fin (n + 1) → ℝ) : ℝ :=
  ∏ j, (√(2 * Real.pi * var j))⁻¹ * Real.exp (-(x j - mean j) ^ 2 / (2 * var j))

/-- Parameters of `FakeMixtureGaussian`: the mean and the diagonal of the covariance matrix of each kernel; `randomize`
(`FakeFunction.py:255-260`) draws between 2 and 9 kernels. What it calls `sigs` are variances. -/
abbrev MixtureParams (n : Nat) := List ((Fin (n + 1) → ℝ) × (Fin (n + 1) → ℝ))

/-- The sum of the densities at one point (`FakeFunction.py:270-272`). -/
def mixtureAt (p : MixtureParams n) (x : Fin (n + 1) → ℝ) : ℝ := (p.map fun k => diagGaussPdf k.1 k.2 x).sum

/-- `FakeMixtureGaussian.calc` of a matrix (`FakeFunction.py:262-274`): `z` starts with one 0 for each row. -/
def mixtureMatrix (p : MixtureParams n) (rows : List (Fin (n + 1) → ℝ)) : List ℝ := rows.map (mixtureAt p)

/-- `FakeMixtureGaussian.calc` of a vector in dimension two or more: `z = np.zeros(rewards.shape[0])` has one entry for each
coordinate (`FakeFunction.py:265-266`), and the one density is added to all of them. -/
def mixtureVector (p : MixtureParams n) (x : Fin (n + 1) → ℝ) : List ℝ := List.replicate (n + 1) (mixtureAt p x)

/-- `FakeStaticSin.calc` (`FakeFunction.py:289-291`). -/
def fakeStaticSin (x : ℝ) : ℝ :=
  2 * Real.cos (Real.pi * ((10 - x) - 2) / 3) * Real.exp (-(0.99 * (10 - x)))

/-- One row of the table of `FakeIntegrate` from the row before (`FakeFunction.py:342-344`). -/
def integRow (g : ℝ) (fi prev : Nat → ℝ) : Nat → ℝ
  | 0 => 0
  | j + 1 => prev (j + 1) + integRow g fi prev j - prev j + fi (j + 1) * g

/-- The table `vals` computed by `FakeIntegrate.randomize` (`FakeFunction.py:333-346`) in dimension two; `f i j` is the integrated function at
the point `(ticks[i], ticks[j])` and `g` the grid size. Row 0 and column 0 stay 0. -/
def integTable (g : ℝ) (f : Nat → Nat → ℝ) : Nat → Nat → ℝ
  | 0 => fun _ => 0
  | i + 1 => integRow g (f (i + 1)) (integTable g f i)

end

end Lop
