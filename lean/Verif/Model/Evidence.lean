import Verif.Model.Laplace
import Verif.Model.Hyper

/-! # Model of the hyper-parameter likelihood of `PreferenceGP` and of its gradient
(`src/lop/models/PreferenceGP.py:518-622`)

Conventions as in `Model/Laplace.lean`. `K` is the covariance matrix of the points `x`, `dK` the list of
matrices returned by `cov_func.cov_gradient(x, x)`. -/

namespace Lop

open Matrix Spec

noncomputable section

variable {n : Nat}

/-- The last lines of `likli_f_hyper` (`PreferenceGP.py:612-622`): the logarithm of a determinant that is not
positive is infinite or undefined (`none`). -/
def hyperValue (K : Matrix (Fin n) (Fin n) ℝ) (F : Fin n → ℝ) (r : Derivs n) : Option ℝ :=
  let tmp := 1 + K * r.1
  if 0 < tmp.det then some (r.2.2 - 1 / 2 * (F ⬝ᵥ (K⁻¹ *ᵥ F)) - 1 / 2 * Real.log tmp.det) else none

/-- `likli_f_hyper(F, x, y)` (`PreferenceGP.py:602-622`): `derivatives` runs before the Cholesky
factorisation. -/
def likliHyper (P : ProbitSet) (y : TrainLabels n) (K : Matrix (Fin n) (Fin n) ℝ) (F : Fin n → ℝ) :
    Except PyErr (Option ℝ) :=
  open Classical in
  (gpDerivatives P y F).bind fun r =>
    if K.PosDef then .ok (r.bind (hyperValue K F)) else .error .valueError

/-- The flags consulted by `grad_likli_f_hyper`: `optimize_parameters` of the pair and of the rating probit,
`optimize_v_only` of the latter, `hyperparam_only_probit` of the model. -/
structure HyperFlags where
  prefOpt : Bool := true
  absOpt : Bool := true
  absVOnly : Bool := true
  onlyProbit : Bool := true

/-- Sum of two optional tensors, as accumulated in `dW_f` (`PreferenceGP.py:536-542`). -/
def addTensor : Option (Fin n → Matrix (Fin n) (Fin n) ℝ) → Option (Fin n → Matrix (Fin n) (Fin n) ℝ) →
    Option (Fin n → Matrix (Fin n) (Fin n) ℝ)
  | none, b => b
  | a, none => a
  | some a, some b => some fun i => a i + b i

/-- `dW_f` (`PreferenceGP.py:535-542`) without ordinal labels; `None` if there are no labels at all. -/
def dWF (P : ProbitSet) (y : TrainLabels n) (F : Fin n → ℝ) : Option (Fin n → Matrix (Fin n) (Fin n) ℝ) :=
  addTensor (y.pairs.map fun l i => Matrix.of (prefWdF P.sigma l F i))
    (y.abs.map fun l i => Matrix.of (absWdF P.absSigma P.absV P.absEps l F i))

/-- One entry of `dL_cov_f` (`PreferenceGP.py:549-559`). -/
def kernelGradEntry (K Binv W : Matrix (Fin n) (Fin n) ℝ) (F grad : Fin n → ℝ)
    (dW : Fin n → Matrix (Fin n) (Fin n) ℝ) (dK : Matrix (Fin n) (Fin n) ℝ) : ℝ :=
  let alpha := K⁻¹ *ᵥ F
  let termA1 := 1 / 2 * (alpha ⬝ᵥ (dK *ᵥ alpha))
  let termA2 := 1 / 2 * (Binv * dK * W).trace
  let termB2 := (Binv * dK) *ᵥ grad
  let termB1 := fun i => 1 / 2 * (Binv * K * dW i).trace
  termA1 - termA2 + ∑ i, (termB2 i - termB1 i)

/-- `dL_cov_f` (`PreferenceGP.py:547-559`): with no labels `B_inv @ K @ None` raises. -/
def kernelGrad (K Binv W : Matrix (Fin n) (Fin n) ℝ) (F grad : Fin n → ℝ) :
    Option (Fin n → Matrix (Fin n) (Fin n) ℝ) → List (Matrix (Fin n) (Fin n) ℝ) → Except PyErr (List ℝ)
  | _, [] => .ok []
  | none, _ :: _ => .error .valueError
  | some dW, dK => .ok (dK.map (kernelGradEntry K Binv W F grad dW))

/-- `grad_theta - term2` for one probit (`PreferenceGP.py:566-576`). -/
def probitGradEntry (K Binv : Matrix (Fin n) (Fin n) ℝ) (g : ℝ) (dW : Matrix (Fin n) (Fin n) ℝ) : ℝ :=
  g - 1 / 2 * (Binv * K * dW).trace

/-- The entry appended for the pair probit (`PreferenceGP.py:564-576`), if any. -/
def pairGrad (P : ProbitSet) (fl : HyperFlags) (K Binv : Matrix (Fin n) (Fin n) ℝ) (F : Fin n → ℝ) :
    Option (List (IPair n)) → Option (List ℝ)
  | some l => if fl.prefOpt then
      some [probitGradEntry K Binv (prefGradHyper P.sigma l F) (prefWdHyper P.sigma l F)] else none
  | none => none

/-- The entries appended for the rating probit. -/
def absGrad (P : ProbitSet) (fl : HyperFlags) (K Binv : Matrix (Fin n) (Fin n) ℝ) (F : Fin n → ℝ) :
    Option (List (ℝ × Fin n)) → Option (List ℝ)
  | some l => if fl.absOpt then
      some (List.zipWith (fun g dW => probitGradEntry K Binv g (Matrix.of dW))
        (absGradHyper fl.absVOnly P.absSigma P.absV P.absEps l F)
        (absWdHyper fl.absVOnly P.absSigma P.absV P.absEps l F)) else none
  | none => none

/-- Concatenation of the optional parts of `grad_hyper` (`PreferenceGP.py:578-589`). -/
def appendGrad : Option (List ℝ) → Option (List ℝ) → Option (List ℝ)
  | none, b => b
  | a, none => a
  | some a, some b => some (a ++ b)

/-- The part of `grad_likli_f_hyper` after the derivatives and the Cholesky factorisation
(`PreferenceGP.py:531-591`). `OrdinalProbit` has no `calc_W_dF` (`ProbitBase.py:129-130`), so ordinal labels
raise `NotImplementedError`. `none` is Python's `None`. -/
def gradLikliRest (P : ProbitSet) (fl : HyperFlags) (y : TrainLabels n) (K : Matrix (Fin n) (Fin n) ℝ)
    (dK : List (Matrix (Fin n) (Fin n) ℝ))
    (invert : Matrix (Fin n) (Fin n) ℝ → Option (Matrix (Fin n) (Fin n) ℝ)) (F : Fin n → ℝ) (r : Derivs n) :
    Except PyErr (Option (List ℝ)) :=
  match invert (1 + K * r.1) with
  | none => .error .valueError
  | some Binv =>
    if y.ord.isSome then .error .notImplemented
    else (kernelGrad K Binv r.1 F r.2.1 (dWF P y F) dK).map fun dL =>
      let g := appendGrad (pairGrad P fl K Binv F y.pairs) (absGrad P fl K Binv F y.abs)
      if fl.onlyProbit then g else appendGrad g (some dL)

/-- `grad_likli_f_hyper(F, x, y)` (`PreferenceGP.py:522-591`). Undefined derivatives (`none`), which only
ordinal labels produce, are outside the model here: what a matrix inversion does with them depends on the
routine. -/
def gradLikliHyper (P : ProbitSet) (fl : HyperFlags) (y : TrainLabels n) (K : Matrix (Fin n) (Fin n) ℝ)
    (dK : List (Matrix (Fin n) (Fin n) ℝ))
    (invert : Matrix (Fin n) (Fin n) ℝ → Option (Matrix (Fin n) (Fin n) ℝ)) (F : Fin n → ℝ) :
    Except PyErr (Option (List ℝ)) :=
  open Classical in
  (gpDerivatives P y F).bind fun r =>
    if K.PosDef then
      match r with
      | none => .error .outsideModel
      | some r => gradLikliRest P fl y K dK invert F r
    else .error .valueError

end

end Lop
