import Verif.Model.Basic
import Mathlib.Algebra.Order.Field.Basic
import Mathlib.Order.BoundedOrder.Basic
import Mathlib.LinearAlgebra.Matrix.NonsingularInverse
import Mathlib.Data.Real.Basic
import Mathlib.Data.Matrix.Mul

/-! # Model of the line searches, the Newton update and the fitting loops
(`PreferenceModel.py:386-471`, `PreferenceGP.py:218-288`, `PreferenceLinear.py:69-108`). -/

namespace Lop

section lineSearch
variable {R S : Type*} [Field R] [LinearOrder S]

/-- The loop of `binary_line_search` (`PreferenceModel.py:433-445`): `g lam` stands for
`loss_func(F - lam*descent, *loss_args)`; returns `(min_lambda, max_lambda)`. -/
def binaryLoop (g : R → S) : Nat → R → R → R × R
  | 0, mn, mx => (mn, mx)
  | n + 1, mn, mx =>
    let dis := mx - mn
    let mid := dis * (1 / 2) + mn
    let lam1 := dis * (1 / 4) + mn
    let lam2 := dis * (3 / 4) + mn
    if g lam1 > g lam2 then binaryLoop g n mn mid else binaryLoop g n mid mx

/-- `binary_line_search` (`PreferenceModel.py:426-448`). -/
def binarySearch (g : R → S) (itr : Nat) (mn mx : R) : R :=
  let r := binaryLoop g itr mn mx
  (1 / 2) * (r.1 + r.2)

/-- `np.arange(min, max, (max-min)/itr)` in exact arithmetic (`PreferenceModel.py:458`). -/
def lineGrid (mn mx : R) (itr : Nat) : List R :=
  (List.range itr).map fun (i : Nat) => mn + (i : R) * ((mx - mn) / (itr : R))

/-- The loop of `iterative_line_search` (`PreferenceModel.py:462-466`), starting from
`(best_lamb, best_loss)`. -/
def iterLoop (g : R → S) : List R → R × S → R × S
  | [], st => st
  | lam :: rest, st => if g lam > st.2 then iterLoop g rest (lam, g lam) else iterLoop g rest st

/-- `iterative_line_search` (`PreferenceModel.py:457-471`). `⊥` of `S` is `-np.inf`; the "not found"
marker is the value `-1`, as in the code. `max_itr = 0` and `max_lambda = min_lambda` make the step or
the grid computation divide by zero. -/
def iterSearch [DecidableEq R] [OrderBot S] (g : R → S) (mn mx : R) (itr : Nat) : Except PyErr R :=
  if itr = 0 ∨ mx = mn then .error .zeroDivision
  else
    let best := (iterLoop g (lineGrid mn mx itr) (-1, ⊥)).1
    if best = -1 then .error .exception else .ok best

end lineSearch

section newton
open Matrix
variable {n : Nat}

/-- The argument `lambda_type` of `newton_update`. -/
inductive LambdaType
  | binary | iter | static | other
  deriving DecidableEq

/-- The direction of `newton_update` (`PreferenceModel.py:397-400`): `invert` is the matrix inversion
routine, `none` = it raised. -/
def descentDir (grad : Fin n → ℝ) (hess : Matrix (Fin n) (Fin n) ℝ)
    (invert : Matrix (Fin n) (Fin n) ℝ → Option (Matrix (Fin n) (Fin n) ℝ)) : Fin n → ℝ :=
  match invert hess with
  | some M => grad ᵥ* M
  | none => grad

/-- `newton_update` (`PreferenceModel.py:386-413`). `lambda_type="static"` reads the attribute
`lambda_gp`, which is never set. -/
noncomputable def newtonUpdate {S : Type*} [LinearOrder S] [OrderBot S]
    (F grad : Fin n → ℝ) (hess : Matrix (Fin n) (Fin n) ℝ) (loss : (Fin n → ℝ) → S)
    (invert : Matrix (Fin n) (Fin n) ℝ → Option (Matrix (Fin n) (Fin n) ℝ))
    (lt : LambdaType) (maxItr : Nat) : Except PyErr (Fin n → ℝ) :=
  let descent := descentDir grad hess invert
  let g : ℝ → S := fun lam => loss (F - lam • descent)
  let lamb : Except PyErr ℝ := match lt with
    | .binary => .ok (binarySearch g maxItr 0 (3 / 2))
    | .iter => iterSearch g (1 / 100) (3 / 2) maxItr
    | .static => .error .attributeError
    | .other => .error .valueError
  match lamb with
  | .error e => .error e
  | .ok lam => .ok (F - lam • descent)

/-- `np.linalg.inv`: raises for singular matrices (in exact arithmetic). -/
noncomputable def npInv (M : Matrix (Fin n) (Fin n) ℝ) : Option (Matrix (Fin n) (Fin n) ℝ) := by
  classical exact if IsUnit M.det then some M⁻¹ else none

end newton

section loops
variable {σ : Type*}

/-- The loop of `PreferenceGP.find_mode` (`PreferenceGP.py:239-278`). `step` is one pass of the body
(derivatives, Newton update, normalisation) and returns the new iterate together with the truth value
of the next test `f_err > delta_f` (false also for NaN), or an exception. `go` is the value of that
test before the first pass. Returns the final iterate and the number of Newton updates, or `none` when
the fuel runs out. -/
def findModeLoop (step : σ → Except PyErr (σ × Bool)) (maxloops : Nat) :
    Nat → σ → Bool → Nat → Option (Except PyErr (σ × Nat))
  | 0, _, _, _ => none
  | fuel + 1, F, go, loops =>
    if go then
      match step F with
      | .error e => some (.error e)
      | .ok (F', go') =>
        let loops := loops + 1
        if loops > maxloops then some (.ok (F', loops))
        else findModeLoop step maxloops fuel F' go' loops
    else some (.ok (F, loops))

/-- The loop of `PreferenceLinear.optimize` (`PreferenceLinear.py:83-104`), same conventions. -/
def linearLoop (step : σ → Except PyErr (σ × Bool)) (maxloops : Nat) :
    Nat → σ → Bool → Nat → Option (Except PyErr (σ × Nat))
  | 0, _, _, _ => none
  | fuel + 1, w, go, loops =>
    if go ∧ loops < maxloops then
      match step w with
      | .error e => some (.error e)
      | .ok (w', go') => linearLoop step maxloops fuel w' go' (loops + 1)
    else some (.ok (w, loops))

end loops

end Lop
