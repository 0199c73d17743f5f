import Verif.Model.PrefProbit
import Mathlib.Data.List.FinRange

/-! # Model of `p_B_pref_gp`, `p_B_pref_linear` (`src/lop/active_learning/ActiveLearner.py:310-369`) and
`calc_cdf` (`src/lop/utilities/probability_utility.py:28-78`)

Floats are idealised to real numbers; `scipy.special.ndtr` is the distribution function `Phi`. A division
by zero (`nan` in numpy) is `none`. -/

namespace Lop

open Finset Spec

noncomputable section

/-- `np.argmax` of a row of a matrix with at least one column. -/
def rowArgmax {N : Nat} (row : Fin N → ℝ) : Except PyErr Nat := npArgmax (List.ofFn row)

/-- `p_B_pref_linear(candidate_pts, mu)` (`ActiveLearner.py:348-369`): `w` are the weight samples drawn by
`metropolis_hastings`, `X` the candidates. No candidates: `np.argmax` raises; no samples: `0/0`. -/
def pBLinear {N d : Nat} (X : Fin N → Fin d → ℝ) (w : List (Fin d → ℝ)) :
    Except PyErr (Option (List ℝ)) := do
  let largest ← w.mapM fun wk => rowArgmax fun i => ∑ k, X i k * wk k
  let p := largest.foldl (fun (p : List ℝ) s => p.modify s (· + 1)) (List.replicate N 0)
  pure (if p.sum = 0 then none else some (p.map (· / p.sum)))

/-- `idx_i` (`ActiveLearner.py:319-320`): all positions except `i`. -/
def otherIdx {N : Nat} (i : Fin N) : List (Fin N) := (List.finRange N).erase i

/-- `K_star_i` (`ActiveLearner.py:324-326`). -/
def kStar {N : Nat} (K : Matrix (Fin N) (Fin N) ℝ) (i : Fin N) :
    Matrix (Fin (otherIdx i).length) (Fin (otherIdx i).length) ℝ :=
  fun j k => K i i + K (otherIdx i)[j] (otherIdx i)[k] - K i (otherIdx i)[j] - K i (otherIdx i)[k]

/-- `mu_star` (`ActiveLearner.py:333`). -/
def muStar {N : Nat} (mu : Fin N → ℝ) (i : Fin N) : Fin (otherIdx i).length → ℝ :=
  fun j => mu (otherIdx i)[j] - mu i

/-- `p_B_pref_gp` (`ActiveLearner.py:310-341`) with the orthant probability routine as a parameter. -/
def pBGp {N : Nat} (cdf : ∀ n, (Fin n → ℝ) → Matrix (Fin n) (Fin n) ℝ → ℝ)
    (K : Matrix (Fin N) (Fin N) ℝ) (mu : Fin N → ℝ) : Option (Fin N → ℝ) :=
  let p := fun i => cdf _ (muStar mu i) (kStar K i)
  if ∑ i, p i = 0 then none else some fun i => p i / ∑ k, p k

/-- `spec.ndtr((0 - mu) / c)` (`probability_utility.py:41,71`) for a diagonal entry `c` of the covariance:
note the division by the variance. Dividing by zero gives `±inf`, where `ndtr` is 0 or 1; `0/0` is handled
by the callers. -/
def ndtrBelow (mu c : ℝ) : ℝ :=
  if c = 0 then if mu < 0 then 1 else 0 else Phi ((0 - mu) / c)

/-- `calc_cdf(mu, cov, method='independent')` (`probability_utility.py:39-41`); `0/0` is `nan`. -/
def calcCdfIndep {n : Nat} (mu : Fin n → ℝ) (cov : Matrix (Fin n) (Fin n) ℝ) : Option ℝ :=
  if ∃ i, cov i i = 0 ∧ mu i = 0 then none else some (∏ i, ndtrBelow (mu i) (cov i i))

/-- `np.unravel_index(np.argmax(mod_cov), cov.shape)` (`probability_utility.py:51`) for the remaining
indices `idxs`: first largest absolute off-diagonal entry in row-major order (diagonal entries are 0). -/
def switchPick {n : Nat} (cov : Matrix (Fin n) (Fin n) ℝ) (idxs : List (Fin n)) : Except PyErr (Nat × Nat) :=
  (npArgmax (idxs.flatMap fun a => idxs.map fun b => if a = b then 0 else |cov a b|)).map fun k =>
    (k / idxs.length, k % idxs.length)

/-- The loop of `calc_cdf(mu, cov, method='switch')` (`probability_utility.py:43-73`) over the remaining
indices. `bvn` is the bivariate normal cdf at 0; `multivariate_normal` raises on a matrix that is not
positive definite. `fuel` bounds the number of passes; every pass removes an index. -/
def switchLoop {n : Nat} (bvn : ℝ × ℝ → ℝ × ℝ × ℝ → ℝ) (mu : Fin n → ℝ) (cov : Matrix (Fin n) (Fin n) ℝ) :
    Nat → List (Fin n) → ℝ → Except PyErr (Option ℝ)
  | fuel + 1, i :: j :: rest, p => do
    let (a, b) ← switchPick cov (i :: j :: rest)
    match (i :: j :: rest)[a]?, (i :: j :: rest)[b]? with
    | some x, some y =>
      if 0 < cov x x ∧ cov x y = cov y x ∧ 0 < cov x x * cov y y - cov x y * cov y x then
        switchLoop bvn mu cov fuel ((i :: j :: rest).eraseIdx (max a b) |>.eraseIdx (min a b))
          (p * bvn (mu x, mu y) (cov x x, cov x y, cov y y))
      else .error .valueError
    | _, _ => .error .indexError
  | _, [i], p => .ok (if cov i i = 0 ∧ mu i = 0 then none else some (p * ndtrBelow (mu i) (cov i i)))
  | _, [], p => .ok (some p)
  | 0, _ :: _ :: _, _ => .error .outsideModel

/-- `calc_cdf(mu, cov, method='switch')` (`probability_utility.py:43-75`). Deleting the same position
twice (when row and column agree) removes it once; that case always raises before. -/
def calcCdfSwitch {n : Nat} (bvn : ℝ × ℝ → ℝ × ℝ × ℝ → ℝ) (mu : Fin n → ℝ)
    (cov : Matrix (Fin n) (Fin n) ℝ) : Except PyErr (Option ℝ) :=
  switchLoop bvn mu cov n (List.finRange n) 1

end

end Lop
