import Verif.Model.Select
import Mathlib.LinearAlgebra.Matrix.Notation
import Mathlib.Data.List.FinRange

/-! # Model of `src/lop/active_learning/ProbabilityLearner.py`

`scipy.stats.multivariate_normal(mean, cov).cdf(x)` is a parameter `mvcdf mean cov x`, compared with the exact
probability in the theorems. `pdb.set_trace()` at the end is taken to do nothing: an interactive user who continues. -/

namespace Lop

variable {n : Nat}

/-- `idx_i[j]` (`ProbabilityLearner.py:57-58`): `list(range(len(p)))` with `i` removed. -/
def plOther (i : Fin (n + 1)) (j : Fin n) : Fin (n + 1) := ((List.finRange (n + 1)).erase i).getD j i

/-- `K_star_i` (`ProbabilityLearner.py:55-64`). -/
def plKStar (K : Matrix (Fin (n + 1)) (Fin (n + 1)) ℝ) (i : Fin (n + 1)) : Matrix (Fin n) (Fin n) ℝ := fun j k =>
  K i i + K (plOther i j) (plOther i k) - K i (plOther i j) - K i (plOther i k)

/-- `mu_star` (`ProbabilityLearner.py:71`). -/
def plMuStar (mu : Fin (n + 1) → ℝ) (i : Fin (n + 1)) : Fin n → ℝ := fun j => mu (plOther i j) - mu i

/-- `p[i]` (`ProbabilityLearner.py:74-82`). -/
def probBest (mvcdf : (Fin n → ℝ) → Matrix (Fin n) (Fin n) ℝ → (Fin n → ℝ) → ℝ)
    (K : Matrix (Fin (n + 1)) (Fin (n + 1)) ℝ) (mu : Fin (n + 1) → ℝ) (i : Fin (n + 1)) : ℝ :=
  mvcdf (plMuStar mu i) (plKStar K i) fun _ => 0

/-- `select_greedy` (`ProbabilityLearner.py:47-93`) for a covariance that `multivariate_normal` accepts: what is
printed, and the value returned, `None`. For another model `p` is not assigned where it is printed. -/
def probabilityGreedy (isPrefGP : Bool) (mvcdf : (Fin n → ℝ) → Matrix (Fin n) (Fin n) ℝ → (Fin n → ℝ) → ℝ)
    (K : Matrix (Fin (n + 1)) (Fin (n + 1)) ℝ) (mu : Fin (n + 1) → ℝ) :
    Except PyErr ((Fin (n + 1) → ℝ) × Option Nat) :=
  if isPrefGP then .ok (probBest mvcdf K mu, none) else .error .unboundLocal

/-- The learner as `select` without `return_not_selected` meets it (`ActiveLearner.py:148-149`, `161-162`): a returned
`None` is not in the set it is removed from. There is no `select_pair`. -/
def probabilityLearner (isPrefGP : Bool) (mvcdf : (Fin n → ℝ) → Matrix (Fin n) (Fin n) ℝ → (Fin n → ℝ) → ℝ)
    (K : Matrix (Fin (n + 1)) (Fin (n + 1)) ℝ) (mu : Fin (n + 1) → ℝ) : Learner where
  greedy _ _ _ := match probabilityGreedy isPrefGP mvcdf K mu with
    | .error e => .error e
    | .ok (_, some i) => .ok i
    | .ok (_, none) => .error .keyError

end Lop
