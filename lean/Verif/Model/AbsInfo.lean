import Verif.Model.Basic
import Verif.Model.AbsProbit
import Mathlib.MeasureTheory.Integral.IntervalIntegral.Basic
import Mathlib.Data.List.FinRange

/-! # Model of `src/lop/active_learning/AbsBayesInfo.py`

`F w c` is the value sample `w` gives to candidate `c` (`all_f`), `pB` the probabilities of being the best
candidate. `scipy.integrate.quad_vec` is a parameter `quad` (the integral over `[0,1]`), compared with the exact
integral in the theorems. `pdb.set_trace()` in `p_q_f_B_unorm` (line 86) is taken to do nothing: an interactive user
who continues. The number of samples is `self.M`. -/

namespace Lop

open ProbabilityTheory Finset

noncomputable section

variable {M N : Nat}

/-- `p_q_f_B_unorm(q, aa, bb, ml)` for one sample, query candidate and best candidate (`AbsBayesInfo.py:83-88`):
`ab` the parameters of the beta distribution of the rating, `m` the mean rating of the best candidate. -/
def absInfoUnnorm (ab : ℝ × ℝ) (m q : ℝ) : ℝ := if q > m then betaPDFReal ab.1 ab.2 q else 0

/-- `integrand(...)` for one sample, query candidate and best candidate (`AbsBayesInfo.py:65-80`), `z` the integral of
`p_q_f_B_unorm`. Where the truncated density is 0 the code computes `0 * log 0`, `nan`, and replaces it by 0. -/
def absInfoIntegrand (ab : ℝ × ℝ) (m z pb q : ℝ) : ℝ :=
  let p := absInfoUnnorm ab m q / z
  if p = 0 then 0 else p * Real.log (p * pb / betaPDFReal ab.1 ab.2 q)

/-- `integ_r` for one sample, query candidate and best candidate (`AbsBayesInfo.py:124-129`). -/
def absInfoCell (quad : (ℝ → ℝ) → ℝ) (ab : ℝ × ℝ) (m pb : ℝ) : ℝ :=
  quad (absInfoIntegrand ab m (quad (absInfoUnnorm ab m)) pb)

/-- `info_gain[c]` (`AbsBayesInfo.py:124-136`), for positive `pB`. -/
def absInfoGain (quad : (ℝ → ℝ) → ℝ) (sigma v eps : ℝ) (pB : Fin N → ℝ) (F : Fin M → Fin N → ℝ)
    (c : Fin N) : ℝ :=
  let E := fun B => (∑ w, absInfoCell quad (alphaBeta sigma v eps (F w c)) (meanLink sigma eps (F w B)) (pB B)) / M
  (∑ B, -pB B * Real.log (pB B)) - ∑ B, -pB B * E B

/-- `select_greedy` (`AbsBayesInfo.py:107-139`) after `calc_one_time`: index and `sel_metric`; `none` is `nan`.
`hasData` is false for a model without training points; `rnd` is the position drawn by `np.random.choice`, which
rejects an empty list. `F` has one column per candidate for a GP and one per index for a linear model; `pB` has one
entry per index. Shapes that do not fit raise; a single index with several columns is not modelled. If some
probability is 0 the entropy is `nan`, all values are, and `np.argmax` returns position 0. -/
def absInfoGreedy (hasData : Bool) (rnd : Nat) (quad : (ℝ → ℝ) → ℝ) (sigma v eps : ℝ)
    (F : Fin M → Fin N → ℝ) (pB : List ℝ) (indicies : List Nat) : Except PyErr (Nat × Option ℝ) :=
  if hasData then
    if pB.length = 1 ∧ N ≠ 1 then .error .outsideModel
    else if pB.length ≠ N then .error .valueError
    else if ∀ b ∈ pB, 0 < b then do
      let vals := (List.finRange N).map (absInfoGain quad sigma v eps (fun B => pB.getD B 0) F)
      let b ← npArgmax vals
      match indicies[b]?, vals[b]? with
      | some i, some g => .ok (i, some g)
      | _, _ => .error .indexError
    else match indicies[0]? with
      | some i => .ok (i, none)
      | none => .error .indexError
  else match indicies[rnd % indicies.length]? with
    | some i => .ok (i, none)
    | none => .error .valueError

end

end Lop
