import Verif.Model.Select
import Mathlib.Algebra.BigOperators.Fin

/-! # Model of `src/lop/active_learning/UCBLearner.py` for every kind of model

`Model/Select.lean` has `select_greedy` given the variances; here is where they come from. The weight
vectors drawn by `metropolis_hastings` are a parameter: one list of 200 vectors per call. -/

namespace Lop

noncomputable section

/-- `np.var(a)` of a vector of `n` numbers. -/
def npVarVec {n : Nat} (a : Fin n → ℝ) : ℝ := (∑ s, (a s - (∑ r, a r) / n) ^ 2) / n

/-- The model types `select_greedy` distinguishes (`UCBLearner.py:55-66`): a Gaussian process with the
predicted variances, a linear model with the 200 weight vectors drawn in call number `t`, or anything
else. -/
inductive UcbModel (d : Nat)
  | gp (var : List ℝ)
  | linear (w : Nat → Fin 200 → Fin d → ℝ)
  | other

/-- The local variable `variance` in call number `t` (`UCBLearner.py:55-66`); for a linear model
`all_w = (candidate_pts @ w_samples.T).T` and `np.var(all_w, axis=0)`. Another model leaves it
unassigned. -/
def UcbModel.variance {d : Nat} (pts : List (Fin d → ℝ)) (t : Nat) : UcbModel d → Except PyErr (List ℝ)
  | .gp var => .ok var
  | .linear w => .ok (pts.map fun x => npVarVec fun s => ∑ k, x k * w t s k)
  | .other => .error .unboundLocal

/-- `UCBLearner` with any model (`UCBLearner.py:54-72`); `mu` is the prediction for the candidates
`pts`. -/
def ucbModelLearner {d : Nat} (ord : Nat → Finset Nat → List Nat) (m : UcbModel d)
    (pts : List (Fin d → ℝ)) (mu : List ℝ) (alpha : ℝ) : Learner where
  greedy t idx prev := match m.variance pts t with
    | .error e => .error e
    | .ok var => (ucbLearner ord mu var alpha).greedy t idx prev

end

end Lop
