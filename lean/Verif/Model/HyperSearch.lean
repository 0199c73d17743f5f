import Verif.Model.Hyper
import Verif.Model.Sampling
import Mathlib.Data.EReal.Operations

/-! # Model of the hyper-parameter priors and of one search step
(`param_likli`/`grad_param_likli` of the probits and kernels, `PreferenceModel.py:354-368`,
`PreferenceGP.py:369-446, 497-514`). -/

namespace Lop

noncomputable section

/-- `PreferenceProbit.param_likli` (`PreferenceProbit.py:152-159`); the `return log_pdf_gamma(…)` of line
157 is unreachable. -/
def PrefHyper.paramLikli (p : PrefHyper ℝ) : EReal :=
  if p.optimize then (if p.sigma ≤ 0 then ((-5000 : ℝ) : EReal) else 0) else 0

/-- `PreferenceProbit.grad_param_likli` (`PreferenceProbit.py:164-169`). -/
def PrefHyper.gradParamLikli (p : PrefHyper ℝ) : List ℝ := if p.optimize then [0] else []

/-- `OrdinalProbit` inherits `ProbitBase.param_likli` (`ProbitBase.py:87-88`). -/
def OrdHyper.paramLikli (_ : OrdHyper ℝ) : EReal := 0

/-- `OrdinalProbit` inherits `ProbitBase.grad_param_likli` (`ProbitBase.py:93-94`). -/
def OrdHyper.gradParamLikli (_ : OrdHyper ℝ) : List ℝ := []

/-- `AbsBoundProbit.param_likli` (`AbsBoundProbit.py:181-194`); the log density of line 183 is
overwritten in both branches of lines 184-187. -/
def AbsHyper.paramLikli (p : AbsHyper ℝ) : EReal :=
  if p.optimize then
    let Lv : EReal := if p.v < 0 then ((-5000 : ℝ) : EReal) else 0
    if p.vOnly then Lv
    else logPdfGamma p.sigma (absSigmaPrior (R := ℝ)).1 (absSigmaPrior (R := ℝ)).2 + Lv
  else 0

/-- `AbsBoundProbit.grad_param_likli` (`AbsBoundProbit.py:199-208`). -/
def AbsHyper.gradParamLikli (p : AbsHyper ℝ) : List ℝ :=
  if p.optimize then
    if p.vOnly then [0]
    else [dLogPdfGamma p.sigma (absSigmaPrior (R := ℝ)).1 (absSigmaPrior (R := ℝ)).2,
      dLogPdfGamma p.v (absVPrior (R := ℝ)).1 (absVPrior (R := ℝ)).2]
  else []

variable {P : Type}

/-- `param_likli` of the leaf kernels (`RBF_kern.py:74-76`, `LinearKern.py:77-80`,
`PeriodicKern.py:118-121`); the prior constants are those of `RBF_kern.py:52-55`,
`LinearKern.py:53-58` and `PeriodicKern.py:53-58`. -/
def KLeaf.paramLikli : KLeaf ℝ P → EReal
  | .rbf s l _ => logPdfGamma s 10 (1 / 10) + logPdfGamma l 3 (2 / 5)
  | .zeroed s l _ _ => logPdfGamma s 10 (1 / 10) + logPdfGamma l 3 (2 / 5)
  | .linear s b c => logPdfGamma s 4 (1 / 4) + logPdfGamma b 3 (1 / 5) + logPdfGamma c 2 (1 / 2)
  | .periodic s l p => logPdfGamma s 4 (1 / 4) + logPdfGamma l 3 (1 / 5) + logPdfGamma p 2 (1 / 2)

/-- `grad_param_likli` of the leaf kernels (`RBF_kern.py:81-83`, `LinearKern.py:85-88`,
`PeriodicKern.py:126-129`). -/
def KLeaf.gradParamLikli : KLeaf ℝ P → List ℝ
  | .rbf s l _ => [dLogPdfGamma s 10 (1 / 10), dLogPdfGamma l 3 (2 / 5)]
  | .zeroed s l _ _ => [dLogPdfGamma s 10 (1 / 10), dLogPdfGamma l 3 (2 / 5)]
  | .linear s b c => [dLogPdfGamma s 4 (1 / 4), dLogPdfGamma b 3 (1 / 5), dLogPdfGamma c 2 (1 / 2)]
  | .periodic s l p => [dLogPdfGamma s 4 (1 / 4), dLogPdfGamma l 3 (1 / 5), dLogPdfGamma p 2 (1 / 2)]

/-- `DualKern.param_likli` (`KernelFunc.py:170-171`). -/
def KExpr.paramLikli : KExpr ℝ P → EReal
  | .leaf k => k.paramLikli
  | .dual _ a b => a.paramLikli + b.paramLikli

/-- `DualKern.grad_param_likli` (`KernelFunc.py:176-177`). -/
def KExpr.gradParamLikli : KExpr ℝ P → List ℝ
  | .leaf k => k.gradParamLikli
  | .dual _ a b => a.gradParamLikli ++ b.gradParamLikli

/-- `PreferenceModel.hyper_liklihood` (`PreferenceModel.py:354-360`, loop over the three probits
unrolled). -/
def HyperState.probitLikli (s : HyperState ℝ P) : EReal :=
  (if s.hasPref then s.pref.paramLikli else 0) + (if s.hasOrd then s.ord.paramLikli else 0) +
    (if s.hasAbs then s.abs.paramLikli else 0)

/-- `PreferenceModel.grad_hyper_liklihood` (`PreferenceModel.py:362-368`). -/
def HyperState.gradProbitLikli (s : HyperState ℝ P) : List ℝ :=
  (if s.hasPref then s.pref.gradParamLikli else []) ++ (if s.hasOrd then s.ord.gradParamLikli else []) ++
    (if s.hasAbs then s.abs.gradParamLikli else [])

/-- `PreferenceGP.hyper_liklihood` (`PreferenceGP.py:497-503`). -/
def HyperState.hyperLikli (s : HyperState ℝ P) : EReal :=
  if s.onlyProbit then s.probitLikli else s.kern.paramLikli + s.probitLikli

/-- `PreferenceGP.grad_hyper_liklihood` (`PreferenceGP.py:505-513`). -/
def HyperState.gradHyperLikli (s : HyperState ℝ P) : List ℝ :=
  if s.onlyProbit then s.gradProbitLikli else s.gradProbitLikli ++ s.kern.gradParamLikli

/-- NumPy's `a ∘ b` on one-dimensional arrays: equal lengths, or one of them of length one; anything
else raises `ValueError`. -/
def broadcast (f : ℝ → ℝ → ℝ) (a b : List ℝ) : Except PyErr (List ℝ) :=
  if a.length = b.length then .ok (List.zipWith f a b)
  else if b.length = 1 then .ok (a.map fun x => f x (b.headD 0))
  else if a.length = 1 then .ok (b.map fun y => f (a.headD 0) y)
  else .error .valueError

/-- `hyperparamter_obj_grad` (`PreferenceGP.py:358-366`): `-grad_likli_f_hyper - grad_hyper_liklihood`
after `set_hyper(x)`. The result of `grad_likli_f_hyper` (the model of `Model/Evidence.lean`, evaluated
at the prediction on the validation data) is a parameter. -/
def HyperState.objGrad (s : HyperState ℝ P) (likGrad : HyperState ℝ P → Except PyErr (List ℝ))
    (x : List ℝ) : Except PyErr (HyperState ℝ P × List ℝ) := do
  let s ← s.setHyper x
  let g ← likGrad s
  let r ← broadcast (fun a b => -a - b) g s.gradHyperLikli
  .ok (s, r)

/-- `np.mean(prev_np, axis=0)` of a list of gradients of length `d` (`PreferenceGP.py:441`). -/
def meanGrad (d : Nat) (l : List (List ℝ)) : List ℝ :=
  (List.range d).map fun j => (l.map fun g => g.getD j 0).sum / l.length

/-- `np.linalg.norm(·, ord=2)` (`PreferenceGP.py:441`). -/
def normTwo (x : List ℝ) : ℝ := Real.sqrt ((x.map fun a => a ^ 2).sum)

/-- The window of gradients (`PreferenceGP.py:434-436`): `insert(0, ·)`, `pop()` if too long. -/
def pushGrad (avg : Nat) (prev : List (List ℝ)) (g : List ℝ) : List (List ℝ) :=
  if avg < (g :: prev).length then (g :: prev).dropLast else g :: prev

/-- The convergence test (`PreferenceGP.py:439-446`). With `hyper_grad_avg = 0` the window is empty,
the mean is `nan` and the comparison `False`. -/
def windowConverged (avg : Nat) (tol : ℝ) (d : Nat) (w : List (List ℝ)) : Prop :=
  w.length = avg ∧ avg ≠ 0 ∧ normTwo (meanGrad d w) < tol

open Classical in
/-- The rollback (`PreferenceGP.py:422-427`): if the prior of the new parameters is below -130, draw new
parameters. -/
def HyperState.rollback (s : HyperState ℝ P) (rng : Nat → ℝ → ℝ → ℝ) : Except PyErr (HyperState ℝ P) :=
  if s.hyperLikli < ((-130 : ℝ) : EReal) then s.randomizeHyper rng else .ok s

/-- What one search step leaves behind. -/
structure SearchStep (P : Type) where
  state : HyperState ℝ P
  window : List (List ℝ)
  converged : Prop

/-- `hyperparameter_search` (`PreferenceGP.py:370-446`); plotting, printing and the flag
`optimized` are left out. `rng` is what `np.random.gamma` returns during the rollback. -/
def HyperState.searchStep (s : HyperState ℝ P) (likGrad : HyperState ℝ P → Except PyErr (List ℝ))
    (rng : Nat → ℝ → ℝ → ℝ) (avg : Nat) (tol : ℝ) (prev : List (List ℝ)) :
    Except PyErr (SearchStep P) := do
  let x0 ← s.getHyper
  let (s, g) ← s.objGrad likGrad x0
  let x ← broadcast (fun a b => a - b * 0.01) x0 g
  let s ← s.setHyper x
  let s ← s.rollback rng
  let w := pushGrad avg prev g
  .ok ⟨s, w, windowConverged avg tol g.length w⟩

open Classical in
/-- The loop over the folds of one round (`PreferenceGP.py:306-332`): a fold is searched unless an
earlier one converged. `likGrad j i`, `rng j i` are the oracles of round `j`, fold `i`. Returns the
state, the window, whether the search converged and how many steps were made. -/
def searchFolds (avg : Nat) (tol : ℝ) (likGrad : Nat → HyperState ℝ P → Except PyErr (List ℝ))
    (rng : Nat → Nat → ℝ → ℝ → ℝ) : Nat → Nat → HyperState ℝ P → List (List ℝ) →
    Except PyErr (HyperState ℝ P × List (List ℝ) × Bool × Nat)
  | 0, _, s, prev => .ok (s, prev, false, 0)
  | m + 1, i, s, prev =>
    match s.searchStep (likGrad i) (rng i) avg tol prev with
    | .error e => .error e
    | .ok r =>
      if r.converged then .ok (r.state, r.window, true, 1)
      else match searchFolds avg tol likGrad rng m (i + 1) r.state r.window with
        | .error e => .error e
        | .ok (s', w, c, k) => .ok (s', w, c, k + 1)

/-- The loop over the rounds (`PreferenceGP.py:300-334`). `splits j` says whether `k_fold_x_y` found
folds in round `j` (it returns `None` otherwise and the round does nothing, line 302). -/
def searchRounds (avg : Nat) (tol : ℝ) (kFold : Nat)
    (splits : Nat → Bool)
    (likGrad : Nat → Nat → HyperState ℝ P → Except PyErr (List ℝ))
    (rng : Nat → Nat → Nat → ℝ → ℝ → ℝ) : Nat → Nat → HyperState ℝ P → List (List ℝ) →
    Except PyErr (HyperState ℝ P × List (List ℝ) × Bool × Nat)
  | 0, _, s, prev => .ok (s, prev, false, 0)
  | m + 1, j, s, prev =>
    if splits j then
      match searchFolds avg tol (likGrad j) (rng j) kFold 0 s prev with
      | .error e => .error e
      | .ok (s', w, true, k) => .ok (s', w, true, k)
      | .ok (s', w, false, k) =>
        match searchRounds avg tol kFold splits likGrad rng m (j + 1) s' w with
        | .error e => .error e
        | .ok (s'', w', c, k') => .ok (s'', w', c, k + k')
    else searchRounds avg tol kFold splits likGrad rng m (j + 1) s prev

/-- The hyper-parameter part of `PreferenceGP.optimize` (`PreferenceGP.py:291-334`) for `n` training
points (`none`: no training data): the number of folds, a random restart, then at most
`ceil(600/k_fold)` rounds. The mode search of each fold is part of the oracle `likGrad`. -/
def HyperState.tune (s : HyperState ℝ P) (on : Bool) (n : Option Nat) (avg : Nat) (tol : ℝ)
    (rng0 : Nat → ℝ → ℝ → ℝ) (splits : Nat → Bool)
    (likGrad : Nat → Nat → HyperState ℝ P → Except PyErr (List ℝ))
    (rng : Nat → Nat → Nat → ℝ → ℝ → ℝ) :
    Except PyErr (HyperState ℝ P × List (List ℝ) × Bool × Nat) :=
  match on, n with
  | true, some n =>
    let kFold := min (n / 2) 4
    if 1 < kFold then
      match s.randomizeHyper rng0 with
      | .error e => .error e
      | .ok s => searchRounds avg tol kFold splits likGrad rng ((600 + kFold - 1) / kFold) 0 s []
    else .ok (s, [], false, 0)
  | _, _ => .ok (s, [], false, 0)

end

end Lop
