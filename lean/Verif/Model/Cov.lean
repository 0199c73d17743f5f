import Verif.Model.Kernel
import Mathlib.Analysis.SpecialFunctions.Trigonometric.Basic
import Mathlib.Analysis.SpecialFunctions.Exp
import Mathlib.LinearAlgebra.Matrix.NonsingularInverse

/-! # Model of kernel evaluation, covariance matrices, kernel gradients and GP prediction
(`src/lop/kernels/*.py`, `PreferenceGP.py:97-177`)

Parameters and coordinates are real numbers. A point is `Fin d → ℝ` (one-dimensional arrays are
reshaped to `d = 1` by the code); a numpy array of points is `Fin n → Fin d → ℝ`. Divisions by a zero
length scale or period (NaN in the code) are excluded by hypotheses of the theorems. -/

namespace Lop

variable {d n m : Nat}

/-- A point. -/
abbrev Pt (d : Nat) := Fin d → ℝ

/-- `np.sum(diff*diff)`. -/
def sqDist (u v : Pt d) : ℝ := ∑ i, (u i - v i) * (u i - v i)

/-- `np.sum(np.abs(diff))`. -/
def l1Dist (u v : Pt d) : ℝ := ∑ i, |u i - v i|

/-- `RBF_kern.__call__` (`RBF_kern.py:168-175`). -/
noncomputable def rbfEval (sigma l : ℝ) (u v : Pt d) : ℝ :=
  sigma * sigma * Real.exp (-sqDist u v / (2 * l * l))

/-- `LinearKern.__call__` (`LinearKern.py:160-161`). -/
def linEval (sigma sigmaB c : ℝ) (u v : Pt d) : ℝ :=
  sigmaB ^ 2 + sigma ^ 2 * ∑ i, (u i - c) * (v i - c)

/-- The factor `exp(exp_int)` of the periodic kernel (`PeriodicKern.py:184-186`). -/
noncomputable def perExp (l p : ℝ) (u v : Pt d) : ℝ :=
  Real.exp (-2 * Real.sin (Real.pi * l1Dist u v / p) * Real.sin (Real.pi * l1Dist u v / p) / (l * l))

/-- `PeriodicKern.__call__` (`PeriodicKern.py:183-188`). -/
noncomputable def perEval (sigma l p : ℝ) (u v : Pt d) : ℝ := sigma * sigma * perExp l p u v

/-- The zero point after `lazy_zero_pt_init` (`RBF_kern_zeroed.py:49-54`). -/
def zeroPt (z : Option (Pt d)) : Pt d := z.getD 0

/-- `__call__` of the leaf kernels (`RBF_kern.py:168-175`, `RBF_kern_zeroed.py:140-146`,
`LinearKern.py:160-161`, `PeriodicKern.py:183-188`). -/
noncomputable def KLeaf.eval (u v : Pt d) : KLeaf ℝ (Pt d) → ℝ
  | .rbf s l _ => rbfEval s l u v
  | .zeroed s l z _ => rbfEval s l u v - rbfEval s l u (zeroPt z) * rbfEval s l v (zeroPt z)
  | .linear s b c => linEval s b c u v
  | .periodic s l p => perEval s l p u v

/-- `DualKern.__call__` (`KernelFunc.py:242-251`). -/
noncomputable def KExpr.eval (u v : Pt d) : KExpr ℝ (Pt d) → ℝ
  | .leaf k => k.eval u v
  | .dual .add a b => a.eval u v + b.eval u v
  | .dual .mul a b => a.eval u v * b.eval u v

open Classical in
/-- The matrix added by `RBF_kern.cov` (`RBF_kern.py:119-120`): `noise` on the diagonal when the
result is square and the first points coincide. -/
noncomputable def noiseTerm (noise : ℝ) (X : Fin n → Pt d) (Y : Fin m → Pt d) :
    Matrix (Fin n) (Fin m) ℝ := Matrix.of fun i j =>
  if n = m ∧ (∃ (hn : 0 < n) (hm : 0 < m), X ⟨0, hn⟩ = Y ⟨0, hm⟩) ∧ i.val = j.val then noise else 0

/-- `RBF_kern.cov` (`RBF_kern.py:103-121`); with two empty arrays the test on the first points raises
`IndexError`. -/
noncomputable def rbfCov (sigma l noise : ℝ) (X : Fin n → Pt d) (Y : Fin m → Pt d) :
    Except PyErr (Matrix (Fin n) (Fin m) ℝ) :=
  if n = m ∧ n = 0 then .error .indexError
  else .ok (Matrix.of fun i j => rbfEval sigma l (X i) (Y j) + noiseTerm noise X Y i j)

/-- `RBF_kern_zeroed.cov` and `zero_cov` (`RBF_kern_zeroed.py:65-93`): the two auxiliary covariances
with the zero point are themselves calls of `RBF_kern.cov` on a one-row array. `X[0]` raises for an
empty `X`. -/
noncomputable def zeroedCov (sigma l : ℝ) (z : Option (Pt d)) (noise : ℝ)
    (X : Fin n → Pt d) (Y : Fin m → Pt d) : Except PyErr (Matrix (Fin n) (Fin m) ℝ) :=
  if n = 0 then .error .indexError
  else
    let z1 : Fin 1 → Pt d := fun _ => zeroPt z
    match rbfCov sigma l noise X Y, rbfCov sigma l noise X z1, rbfCov sigma l noise z1 Y with
    | .ok c, .ok cx, .ok cy =>
      .ok (Matrix.of fun i j => c i j - cx i 0 * cy 0 j / (sigma * sigma))
    | .error e, _, _ => .error e
    | _, .error e, _ => .error e
    | _, _, .error e => .error e

/-- `cov` of the leaf kernels (`RBF_kern.py:103-121`, `RBF_kern_zeroed.py:65-93`,
`LinearKern.py:108-123`, `PeriodicKern.py:71-89`). -/
noncomputable def KLeaf.cov (X : Fin n → Pt d) (Y : Fin m → Pt d) :
    KLeaf ℝ (Pt d) → Except PyErr (Matrix (Fin n) (Fin m) ℝ)
  | .rbf s l noise => rbfCov s l noise X Y
  | .zeroed s l z noise => zeroedCov s l z noise X Y
  | .linear s b c => .ok (Matrix.of fun i j => b ^ 2 + s ^ 2 * ∑ k, (X i k - c) * (Y j k - c))
  | .periodic s l p => .ok (Matrix.of fun i j => s * s * perExp l p (X i) (Y j))

/-- `DualKern.cov` (`KernelFunc.py:190-199`). -/
noncomputable def KExpr.cov (X : Fin n → Pt d) (Y : Fin m → Pt d) :
    KExpr ℝ (Pt d) → Except PyErr (Matrix (Fin n) (Fin m) ℝ)
  | .leaf k => k.cov X Y
  | .dual op a b =>
    match a.cov X Y with
    | .error e => .error e
    | .ok ca => match b.cov X Y with
      | .error e => .error e
      | .ok cb => .ok (match op with
        | .add => Matrix.of fun i j => ca i j + cb i j
        | .mul => Matrix.of fun i j => ca i j * cb i j)

/-- `gradient` of the leaf kernels (`RBF_kern.py:157-166`, `LinearKern.py:152-158`,
`PeriodicKern.py:168-181`); the zeroed kernel calls the object `super()`, a `TypeError`
(`RBF_kern_zeroed.py:136`). -/
noncomputable def KLeaf.gradient (u v : Pt d) : KLeaf ℝ (Pt d) → Except PyErr (List ℝ)
  | .rbf s l _ =>
    let top := sqDist u v
    let ex := Real.exp (-top / (2 * l * l))
    .ok [2 * s * ex, 2 * s * s * top * ex / (l * l * l)]
  | .zeroed .. => .error .typeError
  | .linear s b c =>
    .ok [∑ i, 2 * s * (u i - c) * (v i - c), 2 * b, s * s * ∑ i, (2 * c - u i - v i)]
  | .periodic s l p =>
    let ex := perExp l p u v
    let uv := l1Dist u v
    .ok [2 * s * ex, -2 * s * s * ex * uv / (l * l * l),
      2 * Real.pi * s * s * uv * ex * Real.cos (Real.pi * uv / p) / (l * l * p * p)]

/-- `DualKern.gradient` (`KernelFunc.py:209-219`). -/
noncomputable def KExpr.gradient (u v : Pt d) : KExpr ℝ (Pt d) → Except PyErr (List ℝ)
  | .leaf k => k.gradient u v
  | .dual op a b =>
    match a.gradient u v with
    | .error e => .error e
    | .ok ga => match b.gradient u v with
      | .error e => .error e
      | .ok gb => .ok (match op with
        | .add => ga ++ gb
        | .mul => ga.map (· * b.eval u v) ++ gb.map (· * a.eval u v))

/-- What `cov_gradient` returns: a Python tuple of matrices, or (after arithmetic with a numpy array)
a three-dimensional array. -/
inductive GradVal (n m : Nat)
  | tuple (l : List (Matrix (Fin n) (Fin m) ℝ))
  | array (l : List (Matrix (Fin n) (Fin m) ℝ))

/-- The matrices of a gradient value, in order. -/
def GradVal.mats : GradVal n m → List (Matrix (Fin n) (Fin m) ℝ)
  | .tuple l => l
  | .array l => l

/-- `value * matrix`: numpy multiplies every matrix entrywise and returns an array. -/
def GradVal.mulMat (g : GradVal n m) (M : Matrix (Fin n) (Fin m) ℝ) : GradVal n m :=
  .array (g.mats.map fun A => Matrix.of fun i j => A i j * M i j)

/-- `value + value`: concatenation for two tuples, otherwise entrywise addition, a `ValueError` when
the numbers of matrices differ (no gradient has exactly one matrix, so broadcasting never applies). -/
def GradVal.add : GradVal n m → GradVal n m → Except PyErr (GradVal n m)
  | .tuple a, .tuple b => .ok (.tuple (a ++ b))
  | a, b =>
    if a.mats.length = b.mats.length then
      .ok (.array (List.zipWith (fun A B => Matrix.of fun i j => A i j + B i j) a.mats b.mats))
    else .error .valueError

/-- The two matrices of `RBF_kern.cov_gradient` (`RBF_kern.py:130-154`). -/
noncomputable def rbfCovGrad (s l : ℝ) (X : Fin n → Pt d) (Y : Fin m → Pt d) :
    Matrix (Fin n) (Fin m) ℝ × Matrix (Fin n) (Fin m) ℝ :=
  (Matrix.of fun i j => 2 * s * Real.exp (-sqDist (X i) (Y j) / (2 * l * l)),
   Matrix.of fun i j => 2 * s * s * sqDist (X i) (Y j) * Real.exp (-sqDist (X i) (Y j) / (2 * l * l))
      / (l * l * l))

/-- `cov_gradient` of the leaf kernels (`RBF_kern.py:130-154`, `RBF_kern_zeroed.py:103-124`,
`LinearKern.py:132-149`, `PeriodicKern.py:138-165` – the latter uses the RBF exponential). -/
noncomputable def KLeaf.covGradient (X : Fin n → Pt d) (Y : Fin m → Pt d) :
    KLeaf ℝ (Pt d) → Except PyErr (GradVal n m)
  | .rbf s l _ => .ok (.tuple [(rbfCovGrad s l X Y).1, (rbfCovGrad s l X Y).2])
  | .zeroed s l z noise =>
    if n = 0 then .error .indexError
    else
      let z1 : Fin 1 → Pt d := fun _ => zeroPt z
      match rbfCov s l noise X z1, rbfCov s l noise z1 Y with
      | .ok cx, .ok cy =>
        let gx := rbfCovGrad s l X z1
        let gy := rbfCovGrad s l z1 Y
        .ok (.tuple [
          Matrix.of fun i j => (rbfCovGrad s l X Y).1 i j - (gx.1 i 0 * cy 0 j + cx i 0 * gy.1 0 j),
          Matrix.of fun i j => (rbfCovGrad s l X Y).2 i j - (gx.2 i 0 * cy 0 j + cx i 0 * gy.2 0 j)])
      | .error e, _ => .error e
      | _, .error e => .error e
  | .linear s b c => .ok (.tuple [
      Matrix.of fun i j => 2 * s * ∑ k, (X i k - c) * (Y j k - c),
      Matrix.of fun _ _ => 2 * b,
      Matrix.of fun i j => s * s * ∑ k, (2 * c - X i k - Y j k)])
  | .periodic s l p =>
    let ex : Fin n → Fin m → ℝ := fun i j => Real.exp (-sqDist (X i) (Y j) / (2 * l * l))
    let uv : Fin n → Fin m → ℝ := fun i j => l1Dist (X i) (Y j)
    .ok (.tuple [
      Matrix.of fun i j => 2 * s * ex i j,
      Matrix.of fun i j => -2 * s * s * ex i j * uv i j / (l * l * l),
      Matrix.of fun i j => 2 * Real.pi * s * s * uv i j * ex i j * Real.cos (Real.pi * uv i j / p)
        / (l * l * p * p)])

/-- `DualKern.cov_gradient` (`KernelFunc.py:228-238`). -/
noncomputable def KExpr.covGradient (X : Fin n → Pt d) (Y : Fin m → Pt d) :
    KExpr ℝ (Pt d) → Except PyErr (GradVal n m)
  | .leaf k => k.covGradient X Y
  | .dual .add a b =>
    match a.covGradient X Y with
    | .error e => .error e
    | .ok ga => match b.covGradient X Y with
      | .error e => .error e
      | .ok gb => ga.add gb
  | .dual .mul a b =>
    match a.covGradient X Y with
    | .error e => .error e
    | .ok ga => match b.cov X Y with
      | .error e => .error e
      | .ok cb => match b.covGradient X Y with
        | .error e => .error e
        | .ok gb => match a.cov X Y with
          | .error e => .error e
          | .ok ca => (ga.mulMat cb).add (gb.mulMat ca)

/-! ## Prediction of the preference GP -/

/-- The fitted quantities used by `PreferenceGP.predict`: training points, weight vector
`alpha = K⁻¹ F` (from the Cholesky branch), `W`, and `tmp = invert_function(I + W K)`. -/
structure GPFit (d t : Nat) where
  xTrain : Fin t → Pt d
  alpha : Fin t → ℝ
  W : Matrix (Fin t) (Fin t) ℝ
  tmp : Matrix (Fin t) (Fin t) ℝ

/-- A covariance routine as used by `predict` (any number of rows). -/
abbrev CovFn (d : Nat) :=
  (n m : Nat) → (Fin n → Pt d) → (Fin m → Pt d) → Except PyErr (Matrix (Fin n) (Fin m) ℝ)

/-- `PreferenceGP.predict` (`PreferenceGP.py:97-149`) for an already fitted model, `fit = none` for a
model without data: lists of means and variances. The Cholesky branch is modelled (the fallback, which
computes a scalar `alpha`, is not). -/
noncomputable def gpPredict (cov : CovFn d) {t : Nat} (fit : Option (GPFit d t)) (X : List (Pt d)) :
    Except PyErr (List ℝ × List ℝ) :=
  match fit with
  | none => match cov _ _ X.get X.get with
    | .error e => .error e
    | .ok c => .ok (List.replicate X.length 0, List.ofFn fun i => max 0 (c i i))
  | some f => match cov _ _ X.get f.xTrain with
    | .error e => .error e
    | .ok cx => match cov _ _ X.get X.get with
      | .error e => .error e
      | .ok ct =>
        .ok (List.ofFn (cx.mulVec f.alpha),
          List.ofFn fun i => max 0 (ct i i - ((cx * f.tmp) * (f.W * cx.transpose)) i i))

/-- The loop of `predict_large` (`PreferenceGP.py:166-176`): chunks `low_i = 15 i`,
`high_i = min(n, low_i + 15)`; `runs` iterations remain, starting at run `i`. -/
noncomputable def gpPredictRuns (predict : List (Pt d) → Except PyErr (List ℝ × List ℝ))
    (X : List (Pt d)) : Nat → Nat → List ℝ × List ℝ → Except PyErr (List ℝ × List ℝ)
  | 0, _, acc => .ok acc
  | runs + 1, i, acc =>
    let low := i * 15
    let high := min X.length (low + 15)
    match predict ((X.take high).drop low) with
    | .error e => .error e
    | .ok (mu, sg) =>
      gpPredictRuns predict X runs (i + 1)
        (acc.1.take low ++ mu ++ acc.1.drop high, acc.2.take low ++ sg ++ acc.2.drop high)

/-- `predict_large` (`PreferenceGP.py:157-177`): `num_runs = ceil(n / 15)`; the output arrays start
with unspecified contents (`np.empty`), here `junk`. -/
noncomputable def gpPredictLarge (predict : List (Pt d) → Except PyErr (List ℝ × List ℝ))
    (junk : ℝ) (X : List (Pt d)) : Except PyErr (List ℝ × List ℝ) :=
  gpPredictRuns predict X ((X.length + 14) / 15) 0
    (List.replicate X.length junk, List.replicate X.length junk)

end Lop
