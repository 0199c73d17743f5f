import Verif.Model.InfoGain

/-! # Model of the scaling of the samples in `MutualInfoLearner.select_greedy`

`src/lop/active_learning/MutualInfoLearner.py:63-92`. The matrix of sampled utilities is an argument (one row for each sample, one column for each
candidate). A result that is not finite is `none`. -/

namespace Lop

open Finset

noncomputable section

/-- `np.mean` of a matrix (`MutualInfoLearner.py:82`). -/
def matMean {s N : Nat} (w : Fin s → Fin N → ℝ) : ℝ := (∑ i, ∑ j, w i j) / ((s : ℝ) * N)

/-- `np.mean(self.fake_func(candidate_pts))` (`MutualInfoLearner.py:81`). -/
def vecMean {N : Nat} (f : Fin N → ℝ) : ℝ := (∑ j, f j) / N

/-- The scaling (`MutualInfoLearner.py:80-85`); `fake` are the values of the fake function at the candidates, if the learner has one. Dividing by a mean
of 0 leaves no finite row: an entry is `nan` or infinite. -/
def scaleSamples {s N : Nat} (fake : Option (Fin N → ℝ)) (w : Fin s → Fin N → ℝ) : Option (Fin s → Fin N → ℝ) :=
  match fake with
  | none => some w
  | some f => if matMean w = 0 then none else some fun i j => w i j * (vecMean f / matMean w)

/-- `np.argmax` of gains that are all `nan`: the first position. -/
def firstCandidate {N : Nat} : List (Fin N) → Except PyErr (Fin N × Option ℝ)
  | [] => .error .valueError
  | i :: _ => .ok (i, none)

/-- `select_greedy` (`MutualInfoLearner.py:63-92`): index and metric. `known` says whether the model is a `PreferenceGP`, `GP` or `PreferenceLinear`;
otherwise `all_w` is not assigned. Without finite samples every gain is `nan`. -/
def mutualSelect {s N : Nat} (known : Bool) (M : Nat) (peak : ℝ) (fake : Option (Fin N → ℝ)) (w : Fin s → Fin N → ℝ)
    (indicies prev : List (Fin N)) : Except PyErr (Fin N × Option ℝ) :=
  if known then
    match scaleSamples fake w with
    | some w' => (mutualInfoGreedy M peak w' indicies prev).map fun r => (r.1, some r.2)
    | none => firstCandidate indicies
  else .error .unboundLocal

end

end Lop
