import Verif.Model.Sampling
import Mathlib.Analysis.SpecialFunctions.Log.Base

/-! # Model of the information-gain learners

`src/lop/active_learning/MutualInfoLearner.py` and `src/lop/active_learning/BayesInfoGain.py`. Floats are
idealised to real numbers (a choice probability that underflows to 0 gives `nan` in the program). -/

namespace Lop

open Finset

noncomputable section

/-- `calc_info_gain(Q, all_w)` (`MutualInfoLearner.py:105-114`); `M` is the attribute `self.M`, `w` the
matrix of sampled utilities. -/
def mutualInfoGain {s N : Nat} (M : Nat) (peak : ℝ) (w : Fin s → Fin N → ℝ) (Q : List (Fin N)) :
    Except PyErr ℝ :=
  (pHumanChoice2 (fun i (j : Fin Q.length) => w i Q[j]) peak).map fun p =>
    (∑ i, ∑ j, p i j * Real.logb 2 (M * p i j / ∑ k, p k j)) / M

/-- The end of `select_greedy` (`MutualInfoLearner.py:87-91`): index and metric of the selected
candidate. -/
def mutualInfoGreedy {s N : Nat} (M : Nat) (peak : ℝ) (w : Fin s → Fin N → ℝ)
    (indicies prev : List (Fin N)) : Except PyErr (Fin N × ℝ) := do
  let gains ← indicies.mapM fun idx => mutualInfoGain M peak w (prev ++ [idx])
  let b ← npArgmax gains
  match indicies[b]?, gains[b]? with
  | some i, some g => pure (i, g)
  | _, _ => .error .indexError

/-- `p_q_B_method`; any other string leaves the entry at its initial value 1. -/
inductive PQBMethod
  | probit | m999 | m99 | other

/-- `np.where(p < MIN_LOG_VALUE, 0, p * np.log(p))` summed with a minus sign
(`BayesInfoGain.py:79,145,191,239`). -/
def clippedEntropy {N : Nat} (minLog : ℝ) (p : Fin N → ℝ) : ℝ :=
  -∑ b, if p b < minLog then 0 else p b * Real.log (p b)

/-- `np.prod(probit_mat[q_i, Q_subi])` (`BayesInfoGain.py:43-46`): the product over the other positions. -/
def winProd {N : Nat} (P : Fin N → Fin N → ℝ) (Q : List (Fin N)) (i : Fin Q.length) : ℝ :=
  ∏ j ∈ univ.erase i, P Q[i] Q[j]

/-- `p_q_B[i, B_i]` before normalisation (`BayesInfoGain.py:49-62`). In the branch 'probit' the code
computes `sub_probit_w` but multiplies `sub_probit`. -/
def pqB {N : Nat} (meth : PQBMethod) (P : Fin N → Fin N → ℝ) (Q : List (Fin N)) (i : Fin Q.length)
    (B : Fin N) : ℝ :=
  if B ∉ Q then winProd P Q i
  else match meth with
    | .probit => winProd P Q i
    | .m999 => ∏ j ∈ univ.erase i, if Q[i] = B then 0.999 else P Q[i] Q[j]
    | .m99 => ∏ j ∈ univ.erase i, if Q[i] = B then 0.99 else P Q[i] Q[j]
    | .other => 1

/-- `calc_H_B_Q(Q, p_B, probit_mat)` (`BayesInfoGain.py:35-91`). -/
def calcHBQ {N : Nat} (minLog : ℝ) (meth : PQBMethod) (pB : Fin N → ℝ) (P : Fin N → Fin N → ℝ)
    (Q : List (Fin N)) : ℝ :=
  let pq := fun i => winProd P Q i / ∑ k, winProd P Q k
  let pqb := fun i B => pqB meth P Q i B / ∑ k, pqB meth P Q k B
  let a := fun i B => pqb i B * pB B / pq i
  let pBq := fun i B => a i B / ∑ B', a i B'
  ∑ i, pq i * clippedEntropy minLog (pBq i)

/-- `select_greedy` after `p_B`, `probit_mat` are known (`BayesInfoGain.py:127-173`): selected candidate
and metric; `none` stands for the random choice made for queries of fewer than two candidates. -/
def bayesGreedy {N : Nat} (minLog : ℝ) (meth : PQBMethod) (pB : Fin N → ℝ) (P : Fin N → Fin N → ℝ)
    (indicies prev : List (Fin N)) : Except PyErr (Option (Fin N × ℝ)) :=
  if prev = [] ∧ indicies ≠ [] then .ok none
  else do
    let gains := indicies.map fun i =>
      clippedEntropy minLog pB - calcHBQ minLog meth pB P (prev ++ [i])
    let b ← npArgmax gains
    match indicies[b]?, gains[b]? with
    | some i, some g => pure (some (i, g))
    | _, _ => .error .indexError

/-- `p_q_B[i,j,b]` of `select_pair` (`BayesInfoGain.py:201-219`): the assignments for candidate `b`
happen in round `b` (line `p_q_B[:,i,i]` after `p_q_B[i,:,i]`), and round `i` sets `p_q_B[i,i,:] = 0.5`. -/
def pairPQB {N : Nat} (meth : PQBMethod) (P : Fin N → Fin N → ℝ) (i j b : Fin N) : ℝ :=
  if i = j then
    -- round `b` also writes `p_q_B[b,b,b]`, before the 0.5 of the same round
    0.5
  else match meth with
    | .probit => if j = b then min (P b i) (P i b) else if i = b then max (P b j) (P j b) else P i j
    | .m999 => if j = b then 0.001 else if i = b then 0.999 else P i j
    | .m99 => if j = b then 0.01 else if i = b then 0.99 else P i j
    | .other => P i j

/-- `H(B | i beats j)` of `select_pair` (`BayesInfoGain.py:227-239`). -/
def pairHBq {N : Nat} (minLog : ℝ) (meth : PQBMethod) (pB : Fin N → ℝ) (P : Fin N → Fin N → ℝ)
    (i j : Fin N) : ℝ :=
  let a := fun b => pairPQB meth P i j b * pB b / P i j
  clippedEntropy minLog fun b => a b / ∑ b', a b'

/-- `info_gain[i,j]` of `select_pair` (`BayesInfoGain.py:245-255`). -/
def pairInfoGain {N : Nat} (minLog : ℝ) (meth : PQBMethod) (pB : Fin N → ℝ) (P : Fin N → Fin N → ℝ)
    (i j : Fin N) : ℝ :=
  clippedEntropy minLog pB - (P i j * pairHBq minLog meth pB P i j + P j i * pairHBq minLog meth pB P j i)

end

end Lop
