import Verif.Model.Select
import Verif.Model.Alignment
import Mathlib.LinearAlgebra.Matrix.Determinant.Basic
import Mathlib.Analysis.SpecialFunctions.Pow.Real

/-! # Model of `src/lop/active_learning/GV_UCBLearner.py`

Real numbers instead of floats; `none` is `nan`. Indices are natural numbers below the number `N` of
candidates; Python's negative indices are not modelled. -/

namespace Lop

noncomputable section

/-- `np.argmax` of an array that may contain `nan`: the first `nan` if there is one. -/
def npArgmaxNan (l : List (Option ℝ)) : Except PyErr Nat :=
  match l.findIdx? Option.isNone with
  | some k => .ok k
  | none => npArgmax (l.map fun o => o.getD 0)

/-- `np.float64 ** (1.0 / n)`: `nan` for a negative base unless the exponent is one. -/
def npRoot (x : ℝ) (n : Nat) : Option ℝ :=
  if x < 0 ∧ n ≠ 1 then none else some (x ^ (1 / n : ℝ))

/-- `np.linalg.det(cov[np.ix_(l, l)])` (`GV_UCBLearner.py:65`). -/
def covDet (cov : Nat → Nat → ℝ) (l : List Nat) : ℝ :=
  (Matrix.of fun a b : Fin l.length => cov l[a] l[b]).det

/-- The model types `select_greedy` distinguishes (`GV_UCBLearner.py:45-57`): a Gaussian process with its
predicted covariance `self.model.cov`, a linear model with the candidate points and the 200 weight vectors
drawn by `metropolis_hastings`, or anything else. -/
inductive GVModel (d : Nat)
  | gp (cov : Nat → Nat → ℝ)
  | linear (pts : Nat → Fin d → ℝ) (w : Fin 200 → Fin d → ℝ)
  | other

/-- `all_w = (candidate_pts @ w_samples.T).T` (`GV_UCBLearner.py:54`). -/
def gvAllW {d : Nat} (pts : Nat → Fin d → ℝ) (w : Fin 200 → Fin d → ℝ) (s : Fin 200) (i : Nat) : ℝ :=
  ∑ k, pts i k * w s k

/-- The local variable `cov` for `N` candidates (`GV_UCBLearner.py:45-57`): `np.cov(all_w.T)` has the
candidates as variables and the samples as observations. With a single candidate `np.cov` returns a
zero-dimensional array and `np.diagonal` raises `ValueError`; another model leaves `cov` unassigned. -/
def GVModel.cov {d : Nat} (N : Nat) : GVModel d → Except PyErr (Nat → Nat → ℝ)
  | .gp c => .ok c
  | .linear pts w => if N = 1 then .error .valueError
    else .ok fun i j => npCov (fun s => gvAllW pts w s i) (fun s => gvAllW pts w s j)
  | .other => .error .unboundLocal

/-- `mu[idx] + alpha * SGV[idx]` (`GV_UCBLearner.py:61-67`). -/
def gvValue (cov : Nat → Nat → ℝ) (mu : Nat → ℝ) (alpha : ℝ) (prev : List Nat) (idx : Nat) : Option ℝ :=
  (npRoot (covDet cov (prev ++ [idx])) (prev.length + 1)).map fun s => mu idx + alpha * s

/-- `select_greedy` (`GV_UCBLearner.py:44-71`) for `N` candidates; `indicies` and `prev` list the sets in
Python's iteration order. -/
def gvGreedy {d : Nat} (N : Nat) (m : GVModel d) (mu : Nat → ℝ) (alpha : ℝ) (indicies prev : List Nat) :
    Except PyErr (Nat × Option ℝ) := do
  let cov ← m.cov N
  if (indicies ≠ [] ∧ ∃ i ∈ prev, N ≤ i) ∨ ∃ i ∈ indicies, N ≤ i then .error .indexError
  else
    let vals := indicies.map (gvValue cov mu alpha prev)
    let b ← npArgmaxNan vals
    match indicies[b]?, vals[b]? with
    | some i, some g => pure (i, g)
    | _, _ => .error .indexError

/-- `GV_UCBLearner` as `select` calls it (`GV_UCBLearner.py:44-71`): `ord` gives the iteration order of the two sets, `mu` the
prediction for the candidates. -/
def gvLearner {d : Nat} (ord : Nat → Finset Nat → List Nat) (m : GVModel d) (mu : List ℝ) (alpha : ℝ) : Learner where
  greedy t idx prev :=
    (gvGreedy mu.length m (fun i => mu[i]?.getD 0) alpha (ord t idx) (ord t prev)).map Prod.fst

end

end Lop
