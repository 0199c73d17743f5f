import Verif.Model.Basic
import Mathlib.Data.Real.Basic
import Mathlib.Data.Fintype.BigOperators
import Mathlib.Data.List.FinRange

/-! # Model of `src/lop/active_learning/AcquisitionSelection.py`

`f` is the alignment matrix of the `M` utility samples and `pq` (`P`) the table of win probabilities of all
candidate pairs for each sample. The number of samples equals the attribute `M` (as it does when the
samples come from `get_samples_from_model` without `set_samples`). Floats are idealised to real numbers. -/

namespace Lop

open Finset

noncomputable section

variable {M N : Nat}

/-- `quick_calculation_sum_align_q(f, p_q)` (`AcquisitionSelection.py:46-55`): two nested loops adding a
matrix. -/
def quickSumAlign (f : Fin M → Fin M → ℝ) (pq : Fin M → Fin N → Fin N → ℝ) : Fin N → Fin N → ℝ :=
  (List.finRange M).foldl (fun acc i => (List.finRange M).foldl
    (fun acc j => fun a b => acc a b + f i j * pq i a b * pq j a b) acc) fun _ _ => 0

/-- The vectorised sum (`AcquisitionSelection.py:211-222`): `p_q_w0[w,w'] = p_q[w']` and
`p_q_w1[w,w'] = p_q[w]`. -/
def vecSumAlign (f : Fin M → Fin M → ℝ) (pq : Fin M → Fin N → Fin N → ℝ) (a b : Fin N) : ℝ :=
  ∑ w, ∑ w', pq w' a b * pq w a b * f w w'

/-- `align_Q[a,b]` of `select_pair` (`AcquisitionSelection.py:204-233`). -/
def pairAlign (f : Fin M → Fin M → ℝ) (pq : Fin M → Fin N → Fin N → ℝ) (a b : Fin N) : ℝ :=
  let E := fun a b =>
    (if M * M * N * N > 1000 then quickSumAlign f pq a b else vecSumAlign f pq a b) / (M * M : ℝ)
  let R := fun a b => E a b / ((∑ w, pq w a b) / M)
  R a b + R b a

/-- `p_q[:, :, new]` of `select_greedy` before normalisation (`AcquisitionSelection.py:120-139`), for the
candidate `c`; position `prev.length` is the candidate. -/
def greedyPQ (P : Fin M → Fin N → Fin N → ℝ) (prev : List (Fin N)) (c : Fin N) (w : Fin M)
    (q : Fin (prev.length + 1)) : ℝ :=
  if h : q.1 < prev.length then
    (if prev.length > 1 then
        ((prev.eraseIdx q.1).map fun x => P w (prev[q.1]) x).prod else 1) * P w (prev[q.1]) c
  else (prev.map fun x => P w c x).prod

/-- `align_Q[new]` of `select_greedy` (`AcquisitionSelection.py:141-164`). -/
def greedyAlign (f : Fin M → Fin M → ℝ) (P : Fin M → Fin N → Fin N → ℝ) (prev : List (Fin N))
    (c : Fin N) : ℝ :=
  let p := fun w q => greedyPQ P prev c w q / ∑ q', greedyPQ P prev c w q'
  ∑ q, (∑ w, ∑ w', p w' q * p w q * f w w') / (M * M : ℝ) / ((∑ w, p w q) / M)

/-- `select_greedy` once the samples are drawn (`AcquisitionSelection.py:93-171`): index and metric. For
an empty `prev_selection` the program indexes the scalar drawn by `np.random.choice` (line 103), which itself
raises `ValueError` if there is nothing to draw from. -/
def alignGreedy (f : Fin M → Fin M → ℝ) (P : Fin M → Fin N → Fin N → ℝ) (indicies prev : List (Fin N)) :
    Except PyErr (Fin N × ℝ) :=
  if prev = [] then .error (if indicies = [] then .valueError else .indexError)
  else do
    let vals := indicies.map (greedyAlign f P prev)
    let b ← npArgmax vals
    match indicies[b]?, vals[b]? with
    | some i, some g => pure (i, g)
    | _, _ => .error .indexError

end

end Lop
