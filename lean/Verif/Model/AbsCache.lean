import Verif.Model.AbsInfo
import Verif.Model.Lifecycle
import Verif.Model.Select

/-! # `AbsBayesInfo.calc_one_time` and `select_greedy` with the cached belief

`src/lop/active_learning/AbsBayesInfo.py:28-54,107-139`. The belief for the present model and candidates (`p_B` and `all_Q`, drawn
from the predictive distribution or by `metropolis_hastings`) is a parameter of every call. -/

namespace Lop

/-- The attributes `p_B` and `all_Q` (`AbsBayesInfo.py:45-46`): the probabilities of being the best, and the sampled values with one row for
each of the `M` samples. -/
structure AbsBelief (M : Nat) where
  cols : Nat
  F : Fin M → Fin cols → ℝ
  pB : List ℝ

/-- The first branch of `calc_one_time` (`AbsBayesInfo.py:29-47`): `belief` is what the two branches compute; for a model that is neither a
`PreferenceGP` nor a `PreferenceLinear` the variables are not assigned. -/
def absComputeBelief {β : Type} (kind : BeliefModel) (belief : β) (s : BeliefCache β) : BeliefCache β × Except PyErr β :=
  match kind with
  | .gp => (⟨false, some belief, s.computed + 1⟩, .ok belief)
  | .linear => (⟨false, some belief, s.computed + 1⟩, .ok belief)
  | .other => (s, .error .unboundLocal)

/-- `calc_one_time` (`AbsBayesInfo.py:28-54`). -/
def absGetBelief {β : Type} (kind : BeliefModel) (belief : β) (s : BeliefCache β) : BeliefCache β × Except PyErr β :=
  if s.first then absComputeBelief kind belief s else (s, readBelief s.cache)

/-- `select_greedy` (`AbsBayesInfo.py:107-139`): a model without training points never asks for the belief. -/
noncomputable def absCall {M : Nat} (kind : BeliefModel) (trained : Bool) (rnd : Nat) (quad : (ℝ → ℝ) → ℝ) (sigma v eps : ℝ)
    (belief : AbsBelief M) (indicies : List Nat) (s : BeliefCache (AbsBelief M)) :
    BeliefCache (AbsBelief M) × Except PyErr (Nat × Option ℝ) :=
  if trained then
    match absGetBelief kind belief s with
    | (s', .error e) => (s', .error e)
    | (s', .ok b) => (s', absInfoGreedy true rnd quad sigma v eps b.F b.pB indicies)
  else (s, absInfoGreedy false rnd quad sigma v eps belief.F belief.pB indicies)

/-- The learner `AbsBayesInfo` in the loops of `select` (`ActiveLearner.py:74-172`) with a trained model, once the belief is cached: every call of
`select_greedy` uses it. There is no `select_pair`. `ord` is the order in which `list` runs through a set. -/
noncomputable def absInfoLearner {M : Nat} (ord : Finset Nat → List Nat) (quad : (ℝ → ℝ) → ℝ) (sigma v eps : ℝ)
    (b : AbsBelief M) : Learner where
  greedy := fun _ idx _ => (absInfoGreedy true 0 quad sigma v eps b.F b.pB (ord idx)).map Prod.fst
  pair := none

end Lop
