import Verif.Model.Basic
import Verif.Model.AbsProbit
import Mathlib.MeasureTheory.Integral.IntervalIntegral.Basic
import Mathlib.Data.List.FinRange

/-! # Model of `src/lop/active_learning/AbsAcquisition.py`

`f` is the alignment matrix of the `M` utility samples (`Model/Alignment.lean`), `allQ w c` the value sample
`w` gives to candidate `c`. `scipy.integrate.quad_vec` is a parameter `quad`, compared with the exact integral
in the theorems. The number of samples equals the number of rows of `f`. -/

namespace Lop

open ProbabilityTheory Finset

noncomputable section

variable {M : Nat}

/-- `fast_sum_Q(p_q_w, p_q, f, M)` for one candidate (`AbsAcquisition.py:57-66`). -/
def fastSumQ (f : Fin M → Fin M → ℝ) (p : Fin M → ℝ) (pq : ℝ) : ℝ :=
  ((List.finRange M).foldl (fun acc i => (List.finRange M).foldl
    (fun acc j => acc + f i j * p i * p j / pq) acc) 0) / (M * M)

/-- `pq_integrand(q, aa, bb, f)` for one candidate (`AbsAcquisition.py:43-54`): `ab w` are the parameters of
the beta distribution of the rating under sample `w`. -/
def pqIntegrand (f : Fin M → Fin M → ℝ) (ab : Fin M → ℝ × ℝ) (q : ℝ) : ℝ :=
  fastSumQ f (fun w => betaPDFReal (ab w).1 (ab w).2 q)
    ((∑ w, betaPDFReal (ab w).1 (ab w).2 q) / M)

/-- The integrand of one candidate (`AbsAcquisition.py:129,139-140`). -/
def absIntegrand (sigma v eps : ℝ) (f : Fin M → Fin M → ℝ) (allQ : Fin M → Nat → ℝ) (c : Nat) (q : ℝ) : ℝ :=
  pqIntegrand f (fun w => alphaBeta sigma v eps (allQ w c)) q

/-- The exact value of the integral computed by `quad_vec` (`AbsAcquisition.py:139-140`). -/
def absAlign (sigma v eps : ℝ) (f : Fin M → Fin M → ℝ) (allQ : Fin M → Nat → ℝ) (c : Nat) : ℝ :=
  ∫ q in (0.0001 : ℝ)..0.9999, absIntegrand sigma v eps f allQ c q

/-- `select_greedy` (`AbsAcquisition.py:108-148`): index and `sel_metric`. `hasData` is false when
`get_representative_Q` returned `None`; `rnd` is the position drawn by `np.random.choice` (which rejects an
empty list). -/
def absAlignGreedy (hasData : Bool) (rnd : Nat) (quad : (ℝ → ℝ) → ℝ) (sigma v eps : ℝ)
    (f : Fin M → Fin M → ℝ) (allQ : Fin M → Nat → ℝ) (indicies : List Nat) : Except PyErr (Nat × ℝ) :=
  if hasData then do
    let vals := indicies.map fun c => quad (absIntegrand sigma v eps f allQ c)
    let b ← npArgmax vals
    match indicies[b]?, vals[b]? with
    | some i, some g => pure (i, g)
    | _, _ => .error .indexError
  else match indicies[rnd % indicies.length]? with
    | some i => .ok (i, 0)
    | none => .error .valueError

end

end Lop
