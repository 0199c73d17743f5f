import Verif.Model.PrefProbit
import Verif.Model.OrdProbit
import Verif.Model.AbsProbit
import Verif.Model.Optim
import Verif.Model.GP

/-! # Model of the fit and the prediction of `PreferenceGP` and of the derivatives of `PreferenceLinear`
(`src/lop/models/PreferenceGP.py`, `src/lop/models/PreferenceLinear.py`,
`src/lop/models/PreferenceModel.py:286-301`)

Floats are idealised to real numbers; a result with an infinite or undefined entry is `none`. `K` is the
covariance matrix of the training points; `np.linalg.cholesky` raises exactly when it is not positive
definite, `cho_solve` and `L_inv.T @ L_inv` are the inverse of `K` (as in `Model/GP.lean`). The points to which
the labels refer are the `n` training points. -/

namespace Lop

open Matrix Spec

noncomputable section

variable {n : Nat}

/-- The label fields of `y_train` (`PreferenceModel.py:57`): pairs, ordinal ratings, ratings in (0,1). -/
structure TrainLabels (n : Nat) where
  pairs : Option (List (IPair n))
  ord : Option (List (Int × Fin n))
  abs : Option (List (ℝ × Fin n))

/-- The parameters of the three probits (`PreferenceModel.py:48`). -/
structure ProbitSet where
  sigma : ℝ
  ord : OrdHyper ℝ
  ordEps : ℝ
  absSigma : ℝ
  absV : ℝ
  absEps : ℝ

/-- Curvature matrix, gradient and log-likelihood. -/
abbrev Derivs (n : Nat) := Matrix (Fin n) (Fin n) ℝ × (Fin n → ℝ) × ℝ

/-- Contribution of the pair labels to `derivatives`; nothing when the field is `None`. -/
def pairPart (sigma : ℝ) (F : Fin n → ℝ) : Option (List (IPair n)) → Derivs n
  | none => (0, 0, 0)
  | some l => prefDerivatives sigma l F

/-- Contribution of the ordinal labels. -/
def ordPart (P : ProbitSet) (F : Fin n → ℝ) : Option (List (Int × Fin n)) → Except PyErr (Option (Derivs n))
  | none => .ok (some (0, 0, 0))
  | some l => (ordDerivatives P.ord P.ordEps l F).map fun r => r.map fun r => (Matrix.of r.1, r.2.1, r.2.2)

/-- Contribution of the ratings. -/
def absPart (P : ProbitSet) (F : Fin n → ℝ) : Option (List (ℝ × Fin n)) → Derivs n
  | none => (0, 0, 0)
  | some l => let r := absDerivatives P.absSigma P.absV P.absEps l F; (Matrix.of r.1, r.2.1, r.2.2)

/-- `PreferenceGP.derivatives(y, F)` (`PreferenceGP.py:192-207`): `W`, `grad_ll`, `log_likelihood`. -/
def gpDerivatives (P : ProbitSet) (y : TrainLabels n) (F : Fin n → ℝ) : Except PyErr (Option (Derivs n)) :=
  (ordPart P F y.ord).map fun o => o.map fun o =>
    let p := pairPart P.sigma F y.pairs
    let a := absPart P F y.abs
    (p.1 + o.1 + a.1, p.2.1 + o.2.1 + a.2.1, p.2.2 + o.2.2 + a.2.2)

/-- Ordinal part of `log_likelyhood_training`: `np.log(likelihood)` (`ProbitBase.py:171-172`). -/
def ordLogPart (P : ProbitSet) (F : Fin n → ℝ) : Option (List (Int × Fin n)) → Except PyErr (Option ℝ)
  | none => .ok (some 0)
  | some l => (ordLikelihood P.ord l F).map npLog

/-- Pair part of `log_likelyhood_training`. -/
def pairLogPart (P : ProbitSet) (F : Fin n → ℝ) : Option (List (IPair n)) → ℝ
  | none => 0
  | some l => prefLogLik P.sigma l F

/-- Rating part of `log_likelyhood_training`. -/
def absLogPart (P : ProbitSet) (F : Fin n → ℝ) : Option (List (ℝ × Fin n)) → ℝ
  | none => 0
  | some l => absLogLik P.absSigma P.absV P.absEps l F

/-- `log_likelyhood_training(F, y)` (`PreferenceModel.py:286-301`); `none` is minus infinity. -/
def logLikTraining (P : ProbitSet) (y : TrainLabels n) (F : Fin n → ℝ) : Except PyErr (Option ℝ) :=
  (ordLogPart P F y.ord).map fun o => o.map fun o =>
    pairLogPart P F y.pairs + o + absLogPart P F y.abs

/-- `likli_f(F, x, y, K, L)` (`PreferenceGP.py:633-650`); `np.sum(np.log(np.diagonal(L)))` is half the
logarithm of the determinant of `K`. -/
def likliF (P : ProbitSet) (y : TrainLabels n) (K : Matrix (Fin n) (Fin n) ℝ) (F : Fin n → ℝ) :
    Except PyErr (Option ℝ) :=
  (logLikTraining P y F).map fun l => l.map fun l =>
    l - 1 / 2 * (F ⬝ᵥ (K⁻¹ *ᵥ F)) - Real.log K.det / 2 - 1 / 2 * n * Real.log (2 * Real.pi)

/-- Gradient and Hessian given to `newton_update` in `find_mode` (`PreferenceGP.py:243-246`). -/
def modeGradHess (K : Matrix (Fin n) (Fin n) ℝ) (F : Fin n → ℝ) (r : Derivs n) :
    (Fin n → ℝ) × Matrix (Fin n) (Fin n) ℝ :=
  (r.2.1 - K⁻¹ *ᵥ F, -r.1 - K⁻¹)

/-- The values compared by the line search: exceptions of the likelihood depend on the labels only, so
`derivatives` has raised them before; `⊥` is minus infinity. -/
def lossValue : Except PyErr (Option ℝ) → WithBot ℝ
  | .ok (some v) => v
  | _ => ⊥

/-- One Newton update in `find_mode` (`PreferenceGP.py:240-255`) without `normalize_gp`. A gradient with an
undefined entry gives an undefined iterate (`none`). -/
def findModeUpdate (P : ProbitSet) (y : TrainLabels n) (K : Matrix (Fin n) (Fin n) ℝ)
    (invert : Matrix (Fin n) (Fin n) ℝ → Option (Matrix (Fin n) (Fin n) ℝ)) (F : Fin n → ℝ) :
    Except PyErr (Option (Fin n → ℝ)) := do
  match ← gpDerivatives P y F with
  | none => pure none
  | some r =>
    let gh := modeGradHess K F r
    let F' ← newtonUpdate F gh.1 gh.2 (fun F => lossValue (likliF P y K F)) invert .binary 3
    pure (some F')

/-- `PreferenceGP.predict` (`PreferenceGP.py:119-149`) of a fitted model: `K`, `F`, `W` are the stored
attributes. When `K` has no Cholesky factor `alpha` becomes the scalar `F.T @ K_inv @ F` and
`np.matmul(covXX_test, alpha)` raises `ValueError`. -/
def laplacePredict {t : Nat} (K W : Matrix (Fin t) (Fin t) ℝ) (F : Fin t → ℝ)
    (invert : Matrix (Fin t) (Fin t) ℝ → Option (Matrix (Fin t) (Fin t) ℝ))
    (Ks : Matrix (Fin n) (Fin t) ℝ) (Kss : Matrix (Fin n) (Fin n) ℝ) : Except PyErr (GPPred n) :=
  open Classical in
  if K.PosDef then
    match invert (1 + W * K) with
    | none => .error .valueError
    | some tmp =>
      let c := Kss - (Ks * tmp) * (W * Ksᵀ)
      .ok ⟨Ks *ᵥ (K⁻¹ *ᵥ F), fun i => max 0 (c i i), c⟩
  else .error .valueError

/-- `PreferenceGP.predict(X)` (`PreferenceGP.py:97-149`) of a model fitted to the points `Y` with the stored
matrix `K`. -/
def prefGpPredict {d t : Nat} (cov : CovFn d) (Y : Fin t → Pt d) (K W : Matrix (Fin t) (Fin t) ℝ)
    (F : Fin t → ℝ) (invert : Matrix (Fin t) (Fin t) ℝ → Option (Matrix (Fin t) (Fin t) ℝ))
    (X : Fin n → Pt d) : Except PyErr (GPPred n) := do
  let Ks ← cov _ _ X Y
  let Kss ← cov _ _ X X
  laplacePredict K W F invert Ks Kss

/-- Latent values of the training points `F = x @ w` (`PreferenceLinear.py:124,152`). -/
def linValues {d : Nat} (X : Matrix (Fin n) (Fin d) ℝ) (w : Fin d → ℝ) : Fin n → ℝ := X *ᵥ w

/-- `PreferenceLinear.derivatives(x, y, w)` (`PreferenceLinear.py:123-142`) with `y` the attribute
`y_train` (as in the only call, line 87): `W`, gradient, log-likelihood in the weights. -/
def linDerivatives {d : Nat} (P : ProbitSet) (y : TrainLabels n) (X : Matrix (Fin n) (Fin d) ℝ)
    (w : Fin d → ℝ) : Except PyErr (Option (Derivs d)) :=
  (gpDerivatives P y (linValues X w)).map fun r => r.map fun r => (Xᵀ * r.1 * X, r.2.1 ᵥ* X, r.2.2)

/-- `PreferenceLinear.loss_func(w)` (`PreferenceLinear.py:148-153`) with training data. -/
def linLoss {d : Nat} (P : ProbitSet) (y : TrainLabels n) (X : Matrix (Fin n) (Fin d) ℝ) (w : Fin d → ℝ) :
    Except PyErr (Option ℝ) :=
  logLikTraining P y (linValues X w)

/-- One Newton update of `PreferenceLinear.optimize` (`PreferenceLinear.py:86-97`). -/
def linUpdate {d : Nat} (P : ProbitSet) (y : TrainLabels n) (X : Matrix (Fin n) (Fin d) ℝ)
    (invert : Matrix (Fin d) (Fin d) ℝ → Option (Matrix (Fin d) (Fin d) ℝ)) (w : Fin d → ℝ) :
    Except PyErr (Option (Fin d → ℝ)) := do
  match ← linDerivatives P y X w with
  | none => pure none
  | some r =>
    let w' ← newtonUpdate w r.2.1 (-r.1) (fun w => lossValue (linLoss P y X w)) invert .binary 5
    pure (some w')

/-- One pass of the loop of `PreferenceLinear.optimize` (`PreferenceLinear.py:85-104`) with the default
`invert_function` of `newton_update` (`np.linalg.inv`; the attribute `mat_inv` is not used): new weights and the
next value of the test `w_err > delta_f`, false for an undefined norm. -/
def linStep {d : Nat} (P : ProbitSet) (y : TrainLabels n) (X : Matrix (Fin n) (Fin d) ℝ) :
    Option (Fin d → ℝ) → Except PyErr (Option (Fin d → ℝ) × Bool)
  | none => .ok (none, false)
  | some w => open Classical in (linUpdate P y X npInv w).map fun
    | none => (none, false)
    | some w' => (some w', decide (2 / 1000 < Real.sqrt (∑ i, (w' i - w i) ^ 2)))

/-- `PreferenceLinear.optimize` (`PreferenceLinear.py:68-108`) from the start weights `w0` (random in the code)
with `maxloops = 100`, `delta_f = 0.002`; 101 rounds of fuel suffice (`C63`). -/
def linFit {d : Nat} (P : ProbitSet) (y : TrainLabels n) (X : Matrix (Fin n) (Fin d) ℝ) (w0 : Fin d → ℝ) :
    Except PyErr (Option (Fin d → ℝ)) :=
  match linearLoop (linStep P y X) 100 101 (some w0) true 0 with
  | some r => r.map (·.1)
  | none => .error .outsideModel

end

end Lop
