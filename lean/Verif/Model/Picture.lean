import Verif.Model.Data
import Verif.Model.Pairs
import Mathlib.Data.Real.Basic
import Mathlib.Algebra.Order.Group.Abs

/-! # Model of the recorded pictures (`experiments/GP_visualization.py`)

What is drawn and stored for a model with two rewards; the drawing itself and the files are left out. -/

namespace Lop

noncomputable section

variable {d : Nat} {R : Type*}

/-- `pts` (`GP_visualization.py:18-22`): `np.meshgrid(x, y)`, both coordinates flattened row by row. -/
def gridPts (x y : List ℝ) : List (ℝ × ℝ) := List.zip (y.map fun _ => x).flatten (y.map fun b => x.map fun _ => b).flatten

/-- `np.reshape(v, (n, n))` (`GP_visualization.py:73-77`). -/
def reshapeSquare (n : Nat) (v : List ℝ) : Except PyErr (List (List ℝ)) :=
  if v.length = n * n then .ok ((List.range n).map fun i => (v.drop (i * n)).take n) else .error .valueError

/-- `fake_ut / np.linalg.norm(fake_ut, ord=np.inf)` (`GP_visualization.py:25-27`): `none` is `nan`; the norm of an empty array
raises. -/
def scaleFake (v : List ℝ) : Except PyErr (List (Option ℝ)) :=
  match (v.map fun a => |a|).max? with
  | none => .error .valueError
  | some m => .ok (v.map fun a => if m = 0 then none else some (a / m))

/-- `GP_prior_idx[1]`, after `None` is replaced by `[0,0]` (`GP_visualization.py:86-87`). -/
def shownFrom {α : Type*} (st : ModelState d α R) : Int :=
  match st.prior with
  | none => 0
  | some (_, b) => b

/-- The scattered points `GP_pts[GP_prior_idx[1]:]` (`GP_visualization.py:86-91`). -/
def shownPts {α : Type*} (st : ModelState d α R) : List (Fin d → α) :=
  match st.X with
  | none => []
  | some X => if shownFrom st < 0 then X.drop ((X.length : Int) + shownFrom st).toNat else X.drop (shownFrom st).toNat

/-- One arrow (`GP_visualization.py:103-123`): the line from the worse to the better point, and tail and head of the arrow on it. -/
structure Arrow (d : Nat) where
  start : Fin d → ℝ
  stop : Fin d → ℝ
  tail : Fin d → ℝ
  head : Fin d → ℝ

/-- The arrow of one pair. -/
def arrowOf (X : List (Fin d → ℝ)) (p : Pair) : Except PyErr (Arrow d) :=
  let lg := if p.dk = getDkScalar (1 : Int) 0 then p.u else p.v
  let sm := if p.dk = getDkScalar (1 : Int) 0 then p.v else p.u
  match X[sm]?, X[lg]? with
  | some s, some l => .ok
      { start := s, stop := l, tail := fun k => s k + (l k - s k) * (1 / 2),
        head := fun k => s k + (l k - s k) * (1 / 2 + 1 / 1000) }
  | _, _ => .error .indexError

/-- The loop over the pairs. -/
def arrowLoop (X : List (Fin d → ℝ)) : List Pair → Except PyErr (List (Arrow d))
  | [] => .ok []
  | p :: ps => match arrowOf X p with
    | .error e => .error e
    | .ok a => match arrowLoop X ps with
      | .error e => .error e
      | .ok as => .ok (a :: as)

/-- The arrows (`GP_visualization.py:101-123`); without points, indexing `None` raises. -/
def arrows (st : ModelState d ℝ R) : Except PyErr (List (Arrow d)) :=
  match st.y.rel with
  | none => .ok []
  | some [] => .ok []
  | some ps => match st.X with
    | none => .error .typeError
    | some X => arrowLoop X ps

end

end Lop
