import Verif.Model.Basic
import Mathlib.Analysis.SpecialFunctions.Exp
import Mathlib.Analysis.SpecialFunctions.Log.ERealExp
import Mathlib.Analysis.SpecialFunctions.Gamma.Basic
import Mathlib.Order.Interval.Finset.Fin

/-! # Model of `utilities/human_choice_model.py`, `utilities/mcmc_sampling.py` and
`utilities/gamma_dist.py`.  Floats are idealised to real numbers (log-likelihoods to extended reals). -/

namespace Lop

noncomputable section

/-- `p_human_choice(r, p)` for a vector (`src/lop/utilities/human_choice_model.py:43-50`, 1-D
branch). `np.max` of an empty array raises `ValueError`. -/
def pHumanChoice {n : Nat} (r : Fin n → ℝ) (p : ℝ) : Except PyErr (Fin n → ℝ) :=
  if h : (Finset.univ : Finset (Fin n)).Nonempty then
    let m := Finset.univ.sup' h r
    let e := fun i => Real.exp ((r i - m) * p)
    .ok fun i => e i / ∑ j, e j
  else .error .valueError

/-- `p_human_choice(r, p)` for a matrix (`src/lop/utilities/human_choice_model.py:43-48`): note that
the subtracted maximum is the maximum of the whole matrix. -/
def pHumanChoice2 {m n : Nat} (r : Fin m → Fin n → ℝ) (p : ℝ) : Except PyErr (Fin m → Fin n → ℝ) :=
  if h : (Finset.univ : Finset (Fin m × Fin n)).Nonempty then
    let mx := Finset.univ.sup' h fun q => r q.1 q.2
    let e := fun i j => Real.exp ((r i j - mx) * p)
    .ok fun i j => e i j / ∑ k, e i k
  else .error .valueError

/-- `np.random.choice(arange(n), p=pdf)`: NumPy draws `u` uniformly from [0,1) and returns
`searchsorted(cumsum(pdf)/sum(pdf), u, side='right')`, i.e. the number of entries of the cumulative
distribution that are `≤ u`. -/
def npChoiceIdx {n : Nat} (pdf : Fin n → ℝ) (u : ℝ) : Nat :=
  (Finset.univ.filter fun i : Fin n => (∑ j ∈ Finset.Iic i, pdf j) / (∑ j, pdf j) ≤ u).card

/-- `sample_human_choice(r, p)` (`src/lop/utilities/human_choice_model.py:63-70`, `samples=None`; the
other branch repeats the same draw). -/
def sampleHumanChoice {n : Nat} (r : Fin n → ℝ) (p u : ℝ) : Except PyErr Nat :=
  (pHumanChoice r p).map fun pdf => npChoiceIdx pdf u

open Classical in
/-- One pass of the `metropolis_hastings` loop (`src/lop/utilities/mcmc_sampling.py:60-73`) on the
pair `(cur_x, cur_ll)`.  `np.exp(prop_ll - cur_ll)`: extended-real subtraction has `⊥ - ⊥ = ⊥` and
`⊤ - ⊤ = ⊥`, which rejects, as the NaN comparison of the program does. -/
def mhStep {X : Type*} (ll : X → EReal) (prop : Nat → X → X) (u : Nat → ℝ) (i : Nat)
    (cur : X × EReal) : X × EReal :=
  let propX := prop i cur.1
  let propLL := ll propX
  if ENNReal.ofReal (u i) < EReal.exp (propLL - cur.2) then (propX, propLL) else cur

/-- The loop of `metropolis_hastings` (`mcmc_sampling.py:60-79`), passes `i, …, i+n-1`. `prop i x` is
the `i`-th call of `prop_distribution`, `u i` the `i`-th `np.random.random()`. -/
def mhLoop {X : Type*} (ll : X → EReal) (prop : Nat → X → X) (u : Nat → ℝ) (burn : Nat) :
    Nat → Nat → X × EReal → List X
  | 0, _, _ => []
  | n + 1, i, cur =>
    let cur := mhStep ll prop u i cur
    if i ≥ burn then cur.1 :: mhLoop ll prop u burn n (i + 1) cur
    else mhLoop ll prop u burn n (i + 1) cur

/-- `metropolis_hastings` (`mcmc_sampling.py:49-79`); `x0` is the random initial point of line 57. -/
def metropolisHastings {X : Type*} (ll : X → EReal) (numSamples burn : Nat) (x0 : X)
    (prop : Nat → X → X) (u : Nat → ℝ) : List X :=
  mhLoop ll prop u burn (numSamples + burn) 0 (x0, ll x0)

/-- `normal_prop_dist(x, std=std)` (`mcmc_sampling.py:37-38`): numpy draws `x + std * z` with independent standard normal `z`. -/
noncomputable def normalPropDist {d : Nat} (std : ℝ) (x z : Fin d → ℝ) : Fin d → ℝ := fun j => x j + std * z j

/-- `pdf_gamma` (`src/lop/utilities/gamma_dist.py:38-41`). -/
def pdfGamma (x k θ : ℝ) : ℝ :=
  let term1 := 1 / (Real.Gamma k * θ ^ k)
  term1 * x ^ (k - 1) * Real.exp (-x / θ)

/-- `log_pdf_gamma` (`gamma_dist.py:50-57`) for a scalar. -/
def logPdfGamma (x k θ : ℝ) : EReal :=
  let term1 := 1 / (Real.Gamma k * θ ^ k)
  let xc := if x < 0.000001 then 0.000001 else x
  let gam := Real.log term1 + (k - 1) * Real.log xc - xc / θ
  if x < 0 then ⊥ else (gam : EReal)

/-- `d_log_pdf_gamma` (`gamma_dist.py:66-68`). -/
def dLogPdfGamma (x k θ : ℝ) : ℝ :=
  let x := if x < 0.000001 then 0.000001 else x
  (k - 1) / x - 1 / θ

end

end Lop
