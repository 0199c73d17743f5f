import Verif.Model.Laplace
import Mathlib.Analysis.Normed.Group.Constructions
import Mathlib.Analysis.Normed.Field.Basic

/-! # Model of the whole `PreferenceGP.find_mode` (`src/lop/models/PreferenceGP.py:218-288`)

As in `Model/Laplace.lean`: real numbers, an undefined (NaN) iterate is `none`. The start vector
`np.random.random(len(X_train))` is a parameter. There is at least one training point (otherwise `cov` raises). -/

namespace Lop

open Matrix

noncomputable section

variable {n : Nat}

/-- The settings of the constructor that `find_mode` reads (`PreferenceGP.py:78-80,88-89`). -/
structure ModeOpts where
  normalizeGp : Bool := false
  normalizePositive : Bool := false
  deltaF : ℝ := 2 / 10000
  maxloops : Nat := 100

/-- The normalisation of an iterate (`PreferenceGP.py:258-266`): division by the largest absolute value, or
shifting the smallest value to 0 and dividing by the largest. Division of zeros by 0 gives NaN entries. -/
def normalizeIterate (o : ModeOpts) (F : Fin (n + 1) → ℝ) : Option (Fin (n + 1) → ℝ) :=
  if o.normalizeGp then
    if o.normalizePositive then
      let mn := Finset.univ.inf' Finset.univ_nonempty F
      let G := fun i => F i - mn
      let mx := Finset.univ.sup' Finset.univ_nonempty G
      if mx = 0 then none else some fun i => G i / mx
    else if ‖F‖ = 0 then none else some fun i => F i / ‖F‖
  else some F

/-- One pass of the loop (`PreferenceGP.py:240-272`): the next iterate and the next value of `f_err > delta_f`
(false for NaN). -/
def findModeStep (o : ModeOpts) (P : ProbitSet) (y : TrainLabels (n + 1)) (K : Matrix (Fin (n + 1)) (Fin (n + 1)) ℝ)
    (invert : Matrix (Fin (n + 1)) (Fin (n + 1)) ℝ → Option (Matrix (Fin (n + 1)) (Fin (n + 1)) ℝ)) :
    Option (Fin (n + 1) → ℝ) → Except PyErr (Option (Fin (n + 1) → ℝ) × Bool)
  | none => .ok (none, false)
  | some F => open Classical in (findModeUpdate P y K invert F).map fun F1 =>
    match F1.bind (normalizeIterate o) with
    | none => (none, false)
    | some F' => (some F', decide (o.deltaF < ‖F' - F‖))

/-- What `find_mode` stores: `F`, `n_loops` and the derivatives at `F` (`W`, `grad_ll`, `log_likelihood`). -/
structure ModeFit (n : Nat) where
  F : Option (Fin n → ℝ)
  loops : Nat
  derivs : Option (Derivs n)

/-- `find_mode` (`PreferenceGP.py:218-288`) with the covariance matrix `K` and the start vector `F0`. Without a
Cholesky factor the loop is skipped (`f_err = 0`). `maxloops + 2` rounds of fuel suffice (`C63`). -/
def findMode (o : ModeOpts) (P : ProbitSet) (y : TrainLabels (n + 1)) (K : Matrix (Fin (n + 1)) (Fin (n + 1)) ℝ)
    (invert : Matrix (Fin (n + 1)) (Fin (n + 1)) ℝ → Option (Matrix (Fin (n + 1)) (Fin (n + 1)) ℝ))
    (F0 : Fin (n + 1) → ℝ) : Except PyErr (ModeFit (n + 1)) := do
  let go := open Classical in decide K.PosDef
  match findModeLoop (findModeStep o P y K invert) o.maxloops (o.maxloops + 2) (some F0) go 0 with
  | none => .error .outsideModel
  | some r =>
    let (F, loops) ← r
    match F with
    | none => .ok ⟨none, loops, none⟩
    | some F => (gpDerivatives P y F).map fun d => ⟨some F, loops, d⟩

end

end Lop
