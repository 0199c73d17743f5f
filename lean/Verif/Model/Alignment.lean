import Verif.Model.Basic
import Verif.Model.LazyFit
import Verif.Model.PrefProbit
import Mathlib.Analysis.SpecialFunctions.Log.Basic
import Mathlib.Analysis.SpecialFunctions.Sqrt
import Mathlib.Data.Fintype.BigOperators
import Mathlib.Data.List.FinRange

/-! # Model of the alignment functions of `src/lop/active_learning/AcquisitionBase.py`

`X` is `all_rep`: one row of `d` representative values for each of the `M` sampled utility functions.
Floats are idealised to real numbers; an entry that NumPy evaluates to `nan` is `none`. Not modelled: for a
single sample (`M = 1`) `np.corrcoef` returns a scalar instead of a 1×1 matrix, and the attribute `M` is
taken to be the number of rows (as it is when the samples come from `get_samples_from_model` without
`set_samples`). -/

namespace Lop

open Finset

noncomputable section

variable {M d : Nat}

/-- A row of `rho_R` (`AcquisitionBase.py:134-136`). -/
def softmaxRow (x : Fin d → ℝ) (j : Fin d) : ℝ := Real.exp (x j) / ∑ k, Real.exp (x k)

/-- `f_rho[i,k]` (`AcquisitionBase.py:138-140`): `diff[i,k,:] = rho_R[k,:] - rho_R[i,:]`. -/
def alignRho (X : Fin M → Fin d → ℝ) (i k : Fin M) : ℝ :=
  -√(∑ j, (softmaxRow (X k) j - softmaxRow (X i) j) ^ 2)

/-- One entry of the covariance matrix computed by `np.corrcoef` (mean removed, `ddof = 1`). -/
def npCov (x y : Fin d → ℝ) : ℝ :=
  (∑ j, (x j - (∑ k, x k) / d) * (y j - (∑ k, y k) / d)) / ((d : ℝ) - 1)

/-- One entry of `np.corrcoef`: the covariance divided by the standard deviation of the row, then by that
of the column, clipped to `[-1, 1]`; `0/0` is `nan`. -/
def npCorr (x y : Fin d → ℝ) : Option ℝ :=
  if √(npCov x x) = 0 ∨ √(npCov y y) = 0 then none
  else some (min 1 (max (-1) (npCov x y / √(npCov x x) / √(npCov y y))))

/-- `st.rankdata(all_rep, axis=1)` of one row (default method `average`): tied values share the mean of the
ranks they occupy. -/
def rankRow (x : Fin d → ℝ) (j : Fin d) : ℝ :=
  (((univ.filter fun k => x k < x j).card : ℝ)) + (((univ.filter fun k => x k = x j).card : ℝ) + 1) / 2

/-- `-pear_dis` for one pair of rows (`AcquisitionBase.py:185-186,232-233`). -/
def epicOf (x y : Fin d → ℝ) : Option ℝ :=
  (npCorr x y).map fun r => -(√(1 - r) / √2)

/-- The rank correlation of one pair of rows (`AcquisitionBase.py:188-194,235-242`). -/
def spearmanOf (x y : Fin d → ℝ) : Option ℝ := npCorr (rankRow x) (rankRow y)

variable {s : Nat}

/-- `p_q[w, i, Q]` before normalisation for one query `Q` (`AcquisitionBase.py:153-160`): the product over
the other positions of the query. -/
def repPQ (sigma : ℝ) (x : Fin d → ℝ) (Q : Fin s → Fin d) (i : Fin s) : ℝ :=
  (((List.finRange s).filter fun j => i ≠ j).map fun j => prefAllPairs sigma x (Q i) (Q j)).prod

/-- `p_q[w, i, Q]` after normalisation (`AcquisitionBase.py:163-166`). -/
def repP (sigma : ℝ) (x : Fin d → ℝ) (Q : Fin s → Fin d) (i : Fin s) : ℝ :=
  repPQ sigma x Q i / ∑ i', repPQ sigma x Q i'

/-- `q_best_w[w, Q]` (`AcquisitionBase.py:148`). -/
def repBest (x : Fin d → ℝ) (Q : Fin s → Fin d) : Except PyErr Nat :=
  npArgmax ((List.finRange s).map fun i => x (Q i))

/-- One summand of `g[w', w]`: the log probability under `w'` (row `x`) of the answer best for `w`
(row `y`) (`AcquisitionBase.py:170`). -/
def repTerm (sigma : ℝ) (x y : Fin d → ℝ) (Q : Fin s → Fin d) : Except PyErr ℝ := do
  let b ← repBest y Q
  match ((List.finRange s).map fun i => Real.log (repP sigma x Q i))[b]? with
  | some v => pure v
  | none => .error .indexError

/-- `g[w', w]` (`AcquisitionBase.py:170`). -/
def repG (sigma : ℝ) (x y : Fin d → ℝ) (Qs : List (Fin s → Fin d)) : Except PyErr ℝ := do
  let l ← Qs.mapM (repTerm sigma x y)
  pure l.sum

/-- `f[i, k]` of the branch `loglikelihood` (`AcquisitionBase.py:172-173`). -/
def alignLoglik (sigma : ℝ) (Qs : List (Fin s → Fin d)) (x y : Fin d → ℝ) : Except PyErr ℝ := do
  let a ← repG sigma x y Qs
  let b ← repG sigma y x Qs
  pure (a + b)

/-- `alignment(all_rep, Q_rep)[i, k]` (`AcquisitionBase.py:129-198`). `kind = none` is an `alignment_f` that
is none of the five names: no branch is taken and the method returns `None` (here the inner `none`). The
branch `ones` at lines 143-144 is unreachable. -/
def alignment (sigma : ℝ) (kind : Option AlignKind) (X : Fin M → Fin d → ℝ) (Qs : List (Fin s → Fin d))
    (i k : Fin M) : Except PyErr (Option (Option ℝ)) :=
  if d < 2 then .ok (some (some 0))
  else match kind with
    | some .rho => .ok (some (some (alignRho X i k)))
    | some .loglikelihood => (alignLoglik sigma Qs (X i) (X k)).map fun v => some (some v)
    | some .epic => .ok (some (epicOf (X i) (X k)))
    | some .spearman => .ok (some (spearmanOf (X i) (X k)))
    | some .one => .ok (some (some 1))
    | none => .ok none

/-- `alignment_between(all_rep_1, all_rep_2)[i, k]` (`AcquisitionBase.py:207-248`): the correlation matrix
of the stacked rows, upper right block. -/
def alignmentBetween {M' d' : Nat} (kind : Option AlignKind) (X : Fin M → Fin d → ℝ)
    (Y : Fin M' → Fin d' → ℝ) (i : Fin M) (k : Fin M') : Except PyErr (Option (Option ℝ)) :=
  if h : M = M' ∧ d = d' then
    let y : Fin d → ℝ := fun j => Y k (Fin.cast h.2 j)
    if d < 2 then .ok (some (some 0))
    else match kind with
      | some .rho => .error .notImplemented
      | some .loglikelihood => .error .notImplemented
      | some .epic => .ok (some (epicOf (X i) y))
      | some .spearman => .ok (some (spearmanOf (X i) y))
      | some .one => .ok (some (some 1))
      | none => .ok none
  else .error .exception

end

end Lop
