import Verif.Model.Sampling
import Verif.Model.Basic
import Mathlib.Analysis.SpecialFunctions.Log.Basic

/-! # Model of the calibration objectives of `HumanChoiceUser`
(`src/lop/utilities/synthetic_user.py`)

`y i j` is the utility of alternative `j` of sampled query `i`. Floats are idealised to real numbers; the
random draws of one evaluation are parameters. `sampled_objective2` refers to an undefined name and is not
modelled. -/

namespace Lop

open Finset

noncomputable section

/-- `np.max(p, axis=1)` of one row; an empty row never gets here (`p_human_choice` raises before). -/
def rowMax {q : Nat} (p : Fin q → ℝ) : ℝ :=
  if h : (univ : Finset (Fin q)).Nonempty then univ.sup' h p else 0

/-- `p_max`: the first lines of `sampled_objective` (`synthetic_user.py:122-124`) and of `kl_objective`
(`synthetic_user.py:98-103`). -/
def pMaxRows {n q : Nat} (b : ℝ) (y : Fin n → Fin q → ℝ) : Except PyErr (Fin n → ℝ) :=
  (pHumanChoice2 y b).map fun p i => rowMax (p i)

/-- `sampled_objective(b, desired_p, sample_queries, y)` (`synthetic_user.py:121-131`) with the uniform
draws `pf`. -/
def sampledObjective {n q : Nat} (b desired : ℝ) (y : Fin n → Fin q → ℝ) (pf : Fin n → ℝ) : Except PyErr ℝ :=
  (pMaxRows b y).map fun pm => (((univ.filter fun i => pf i ≤ pm i).card : ℝ) / n - desired) ^ 2

/-- `np.where(p_max > 0.999999, ...)`, `np.where(p_max < 0.000001, ...)` (`synthetic_user.py:106-107`). -/
def klClip (p : ℝ) : ℝ :=
  let p := if p > 0.999999 then 0.999999 else p
  if p < 0.000001 then 0.000001 else p

/-- `KL_1` and, with the arguments exchanged, `KL_2` (`synthetic_user.py:110-116`). -/
def klTerm (p d : ℝ) : ℝ := p * Real.log (p / d) + (1 - p) * Real.log ((1 - p) / (1 - d))

/-- `kl_objective(b, desired_p, sample_queries)` (`synthetic_user.py:97-118`); a desired probability outside
(0,1) gives `nan` (`none`). -/
def klObjective {n q : Nat} (b desired : ℝ) (y : Fin n → Fin q → ℝ) : Except PyErr (Option ℝ) :=
  (pMaxRows b y).map fun pm =>
    if 0 < desired ∧ desired < 1 then
      some ((∑ i, (klTerm (klClip (pm i)) desired + klTerm desired (klClip (pm i)))) / n)
    else none

/-- `rate_sampled_objective(sigma, desired_p, sample_queries, y)` (`synthetic_user.py:149-156`) with the
standard normal draws `z`; queries without alternatives raise in `np.argmax`, no queries at all give `0/0`, that is `nan`. -/
def rateSampledObjective {n q : Nat} (sigma desired : ℝ) (y z : Fin n → Fin q → ℝ) : Except PyErr (Option ℝ) :=
  if sigma < 0 ∨ q = 0 then .error .valueError
  else do
    let r ← (List.finRange n).mapM fun i => npArgmax (List.ofFn fun j => y i j + sigma * z i j)
    let s ← (List.finRange n).mapM fun i => npArgmax (List.ofFn (y i))
    if n = 0 then pure none
    else
      let correct := ((r.zip s).filter fun q => q.1 = q.2).length
      pure (some (((correct : ℝ) / n - desired) ^ 2))

end

end Lop
