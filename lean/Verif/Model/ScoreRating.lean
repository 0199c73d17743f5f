import Verif.Model.Basic
import Mathlib.Data.Real.Basic

/-! # Model of `rating_score_from_fake_f` (`experiments/experiment_helper.py:429-445`)

Real numbers instead of floats: `np.arange(lo, hi, (hi - lo) / 5)` has five entries. Printing is left out. -/

namespace Lop

noncomputable section

/-- `decision_pts` (`experiment_helper.py:430-431`): five equidistant points, the first replaced by 0. A step of zero raises. -/
def decisionPts (lo hi : ℝ) : Except PyErr (List ℝ) :=
  if hi - lo = 0 then .error .zeroDivision
  else .ok (((List.range 5).map fun (i : Nat) => lo + i * ((hi - lo) / 5)).set 0 0)

/-- The inner loop (`experiment_helper.py:437-441`) from point number `i` on; the running `idx`. -/
def lastBelow (y : ℝ) : List ℝ → Int → Int → Int
  | [], _, idx => idx
  | pt :: rest, i, idx => lastBelow y rest (i + 1) (if y > pt then i else idx)

/-- `ratings.append(idx/5.0 + 0.1)` for one utility (`experiment_helper.py:436-443`). -/
def scoreRating (pts : List ℝ) (y : ℝ) : ℝ := (lastBelow y pts 0 (-1) : ℝ) / 5 + 0.1

/-- `rating_score_from_fake_f(rewards, fake_func, rating_bounds)` (`experiment_helper.py:429-445`); `ys` are the utilities `real_y`. -/
def scoreRatings (lo hi : ℝ) (ys : List ℝ) : Except PyErr (List ℝ) :=
  match decisionPts lo hi with
  | .error e => .error e
  | .ok pts => .ok (ys.map (scoreRating pts))

end

end Lop
