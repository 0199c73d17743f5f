import Verif.Model.Cov
import Mathlib.LinearAlgebra.Matrix.PosDef
import Mathlib.Analysis.Calculus.Deriv.Basic

/-! # Specification vocabulary for kernels, covariance matrices and their derivatives -/

namespace Lop.Spec

open Lop

variable {d n m : Nat}

/-- Parameter values for which the kernel formulas are defined: non-zero length scales and periods,
non-negative noise. `oneDim` says that the points are one-dimensional (needed for periodic kernels).
The zeroed kernel additionally divides by its variance. -/
def LeafOK (oneDim : Prop) : KLeaf ℝ (Pt d) → Prop
  | .rbf _ l noise => l ≠ 0 ∧ 0 ≤ noise
  | .zeroed s l _ noise => s ≠ 0 ∧ l ≠ 0 ∧ 0 ≤ noise
  | .linear _ _ _ => True
  | .periodic _ l p => l ≠ 0 ∧ p ≠ 0 ∧ oneDim

/-- All leaves of an expression satisfy `Q`. -/
def AllLeaves {R P : Type*} (Q : KLeaf R P → Prop) : KExpr R P → Prop
  | .leaf k => Q k
  | .dual _ a b => AllLeaves Q a ∧ AllLeaves Q b

/-- The leaf is not a zeroed kernel. -/
def NotZeroed {R P : Type*} : KLeaf R P → Prop
  | .zeroed .. => False
  | _ => True

/-- The leaf is a linear kernel. -/
def IsLinear {R P : Type*} : KLeaf R P → Prop
  | .linear .. => True
  | _ => False

/-- The zero point of a zeroed leaf is not the only point of the array. -/
def ZeroNotAlone (X : Fin n → Pt d) : KLeaf ℝ (Pt d) → Prop
  | .zeroed _ _ z _ => ¬ (n = 1 ∧ ∀ i, X i = zeroPt z)
  | _ => True

/-- The kernel has positive noise in enough places: a noisy RBF leaf; a sum with a noisy side; a
product of a noisy side with a kernel of positive variance at every point. -/
inductive Noisy (X : Fin n → Pt d) : KExpr ℝ (Pt d) → Prop
  | rbf {s l noise : ℝ} : 0 < noise → Noisy X (.leaf (.rbf s l noise))
  | addLeft {a b : KExpr ℝ (Pt d)} : Noisy X a → Noisy X (.dual .add a b)
  | addRight {a b : KExpr ℝ (Pt d)} : Noisy X b → Noisy X (.dual .add a b)
  | mulLeft {a b : KExpr ℝ (Pt d)} : Noisy X a → (∀ i, 0 < b.eval (X i) (X i)) →
      Noisy X (.dual .mul a b)
  | mulRight {a b : KExpr ℝ (Pt d)} : Noisy X b → (∀ i, 0 < a.eval (X i) (X i)) →
      Noisy X (.dual .mul a b)

/-- A Cholesky factor: lower triangular, positive diagonal, `L Lᵀ = K`. -/
def IsCholesky (K L : Matrix (Fin n) (Fin n) ℝ) : Prop :=
  (∀ i j, i < j → L i j = 0) ∧ (∀ i, 0 < L i i) ∧ L * L.transpose = K

/-- Position `(i, j)` is where two equally long point lists with the same first point are treated as
one list of samples, on the diagonal. -/
def NoiseSpot (X : Fin n → Pt d) (Y : Fin m → Pt d) (i : Fin n) (j : Fin m) : Prop :=
  n = m ∧ (∃ (hn : 0 < n) (hm : 0 < m), X ⟨0, hn⟩ = Y ⟨0, hm⟩) ∧ i.val = j.val

/-- The observation noise of a leaf. -/
def noiseOf {P : Type*} : KLeaf ℝ P → ℝ
  | .rbf _ _ noise => noise
  | .zeroed _ _ _ noise => noise
  | _ => 0

/-- Total observation noise of a sum of kernels. -/
def noiseSum {P : Type*} : KExpr ℝ P → ℝ
  | .leaf k => noiseOf k
  | .dual _ a b => noiseSum a + noiseSum b

/-- The kernel expression with the observation noise of every leaf added to the value of that leaf; products multiply the
noisy values. -/
noncomputable def evalNoisy (u v : Pt d) : KExpr ℝ (Pt d) → ℝ
  | .leaf k => k.eval u v + noiseOf k
  | .dual .add a b => evalNoisy u v a + evalNoisy u v b
  | .dual .mul a b => evalNoisy u v a * evalNoisy u v b

/-- No products in the expression. -/
def OnlySums {R P : Type*} : KExpr R P → Prop
  | .leaf _ => True
  | .dual .add a b => OnlySums a ∧ OnlySums b
  | .dual .mul _ _ => False

/-- The kernel with the `j`-th parameter replaced by `t` (the other parameters unchanged), evaluated
at two points. -/
noncomputable def evalAt (k : KExpr ℝ (Pt d)) (u v : Pt d) (j : Nat) (t : ℝ) : ℝ :=
  match k.setParam (k.getParam.set j t) with
  | .ok k' => k'.eval u v
  | .error _ => 0

/-- `g` lists the partial derivatives of the pointwise kernel, one per parameter, in the order of
`get_param`. -/
def IsGradient (k : KExpr ℝ (Pt d)) (u v : Pt d) (g : List ℝ) : Prop :=
  g.length = k.getParam.length ∧
  ∀ (j : Nat) θ g', k.getParam[j]? = some θ → g[j]? = some g' → HasDerivAt (evalAt k u v j) g' θ

/-- Entry `(i, j)` of the covariance matrix as a function of the `q`-th parameter. -/
noncomputable def covAt (k : KExpr ℝ (Pt d)) (X : Fin n → Pt d) (Y : Fin m → Pt d)
    (i : Fin n) (j : Fin m) (q : Nat) (t : ℝ) : ℝ :=
  match k.setParam (k.getParam.set q t) with
  | .ok k' => match k'.cov X Y with
    | .ok c => c i j
    | .error _ => 0
  | .error _ => 0

/-- `gs` lists the entrywise derivatives of the covariance matrix, one matrix per parameter, in the
order of `get_param`. -/
def IsCovGradient (k : KExpr ℝ (Pt d)) (X : Fin n → Pt d) (Y : Fin m → Pt d)
    (gs : List (Matrix (Fin n) (Fin m) ℝ)) : Prop :=
  gs.length = k.getParam.length ∧
  ∀ (q : Nat) θ G, k.getParam[q]? = some θ → gs[q]? = some G →
    ∀ i j, HasDerivAt (covAt k X Y i j q) (G i j) θ

/-- No leaf adds observation noise. -/
def NoNoise {P : Type*} (k : KLeaf ℝ P) : Prop := noiseOf k = 0

end Lop.Spec
