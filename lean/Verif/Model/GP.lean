import Verif.Model.Cov
import Mathlib.LinearAlgebra.Matrix.PosDef

/-! # Model of GP regression (`src/lop/models/GP.py`)

The state is the training data: `none` after construction and after `reset`, otherwise a list of rows
`(x, y - mean_func(x), sigma)`. The arrays `X`, `y` and `training_sigma` of one `add` call are assumed
equally long (a scalar `training_sigma` is broadcast by the code, lines 66-67). `mean_func` is a
parameter, applied pointwise; the default is `fun _ => 0` (lines 52-55). -/

namespace Lop

variable {d : Nat}

/-- The training data of a `GP` object. -/
abbrev GPState (d : Nat) := Option (List (Pt d × ℝ × ℝ))

/-- `GP.add` (`GP.py:65-78`). -/
def gpAdd (mean : Pt d → ℝ) (st : GPState d) (rows : List (Pt d × ℝ × ℝ)) : GPState d :=
  let new := rows.map fun r => (r.1, r.2.1 - mean r.1, r.2.2)
  match st with
  | none => some new
  | some old => some (old ++ new)

/-- `GP.reset` (`GP.py:83-85`). -/
def gpReset (_ : GPState d) : GPState d := none

/-- What `GP.predict` returns, and the attribute `self.cov` it stores. -/
structure GPPred (n : Nat) where
  mu : Fin n → ℝ
  sigma : Fin n → ℝ
  cov : Matrix (Fin n) (Fin n) ℝ

open Classical in
/-- `GP.predict` (`GP.py:92-124`). `np.linalg.cholesky` raises `LinAlgError`, a subclass of
`ValueError`, on matrices which are not positive definite; `cho_solve((L, True), B)` is modelled by
the product with the inverse matrix. -/
noncomputable def gpRegress (cov : CovFn d) (mean : Pt d → ℝ) (st : GPState d) {n : Nat}
    (X : Fin n → Pt d) : Except PyErr (GPPred n) :=
  match st with
  | none => match cov _ _ X X with
    | .error e => .error e
    | .ok c => .ok ⟨fun _ => 0, fun i => max 0 (c i i), c⟩
  | some rows =>
    let Y : Fin rows.length → Pt d := fun j => (rows.get j).1
    let y : Fin rows.length → ℝ := fun j => (rows.get j).2.1
    match cov _ _ X X with
    | .error e => .error e
    | .ok covXX => match cov _ _ X Y with
      | .error e => .error e
      | .ok covXY => match cov _ _ Y Y with
        | .error e => .error e
        | .ok cYY =>
          let covYY := cYY + Matrix.diagonal fun j => (rows.get j).2.2
          if covYY.PosDef then
            let post := covXX - covXY * (covYY⁻¹ * covXY.transpose)
            .ok ⟨fun i => covXY.mulVec (covYY⁻¹.mulVec y) i + mean (X i),
              fun i => max 0 (post i i), post⟩
          else .error .valueError

end Lop
