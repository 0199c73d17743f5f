import Verif.Model.Select
import Verif.Model.Alignment
import Mathlib.Data.List.OfFn

/-! # Model of `evaluation` (`experiments/experiment_helper.py:804-862`)

The function which scores a trained model in the experiments. The scores `model(rewards)` and the true
utilities `utility_f(rewards)` are arbitrary vectors with one entry per row; `np.argsort` is an oracle (the
order of ties is unspecified); `ord` is the iteration order of Python sets. Floats are idealised to real
numbers and `nan` is `none`. For a single row `np.corrcoef` gives `nan`. Printing is left out, and so is the
side effect of writing the chosen index into `eval_data` (it is never read again). -/

namespace Lop

noncomputable section

/-- What one pass of the loop records (`experiment_helper.py:849-860`). -/
structure EvalRow where
  best : Nat
  rank : Nat
  estimated : ℝ
  real : ℝ
  diff : ℝ
  spearman : Option ℝ
  pearson : Option ℝ
  rho : ℝ

/-- `np.argsort(v)[::-1]` for the argsort `σ` of `v` (`experiment_helper.py:830,836`). -/
def descIdx {k : Nat} (σ : Fin k → Fin k) (j : Fin k) : Fin k := σ (Fin.rev j)

/-- `np.corrcoef(a)[0,1]` of two rows of length `k` (`experiment_helper.py:838-839`); for `k = 1` the
normalisation divides by zero and the entry is `nan`. -/
def corrEntry {k : Nat} (x y : Fin k → ℝ) : Option ℝ := if k < 2 then none else npCorr x y

/-- `f_rho` (`experiment_helper.py:842-847`). -/
def evalRho {k : Nat} (scores util : Fin k → ℝ) : ℝ :=
  -√(∑ j, (softmaxRow util j - softmaxRow scores j) ^ 2)

/-- `spearman` (`experiment_helper.py:830,836,838`). -/
def evalSpearman {k : Nat} (σu σs : Fin k → Fin k) : Option ℝ :=
  corrEntry (fun j => ((descIdx σu j).val : ℝ)) (fun j => ((descIdx σs j).val : ℝ))

/-- One pass of the loop after the rows were taken out (`experiment_helper.py:824-860`): `scores` and `util`
for the selected rows, `σs` and `σu` the results of `np.argsort` on them. -/
def evalOne (ord : Finset Nat → List Nat) (pareto : List Nat) {k : Nat} (scores util : Fin k → ℝ)
    (σs σu : Fin k → Fin k) : Except PyErr EvalRow :=
  match selectBest ord (List.ofFn scores) pareto.toFinset ∅ with
  | .error e => .error e
  | .ok b =>
    match (List.ofFn (descIdx σu))[0]? with
    | none => .error .indexError
    | some t =>
      match (List.ofFn fun j => (descIdx σu j).val).findIdx? (· == b) with
      | none => .error .indexError
      | some r =>
        if h : b < k then
          .ok { best := b
                rank := r
                estimated := scores ⟨b, h⟩
                real := util ⟨b, h⟩
                diff := util t - util ⟨b, h⟩
                spearman := evalSpearman σu σs
                pearson := corrEntry util scores
                rho := evalRho scores util }
        else .error .indexError

variable {X : Type*}

/-- `rewards[indicies['pareto']]` (`experiment_helper.py:823`). -/
def takeRows (rewards : List X) : List Nat → Except PyErr (List X)
  | [] => .ok []
  | i :: rest =>
    match rewards[i]? with
    | none => .error .indexError
    | some x => match takeRows rewards rest with
      | .error e => .error e
      | .ok xs => .ok (x :: xs)

/-- The functions used on the rows: the model, the true utility and `np.argsort`. -/
structure EvalFns (X : Type*) where
  score : (l : List X) → Fin l.length → ℝ
  util : (l : List X) → Fin l.length → ℝ
  argsort : {k : Nat} → (Fin k → ℝ) → Fin k → Fin k

/-- One pass of the loop (`experiment_helper.py:819-860`). -/
def evalEnv (ord : Finset Nat → List Nat) (fns : EvalFns X) (env : List X × List Nat) : Except PyErr EvalRow :=
  match takeRows env.1 env.2 with
  | .error e => .error e
  | .ok rows =>
    evalOne ord env.2 (fns.score rows) (fns.util rows) (fns.argsort (fns.score rows))
      (fns.argsort (fns.util rows))

/-- The loop (`experiment_helper.py:819-860`): the first exception ends it. -/
def evalLoop (ord : Finset Nat → List Nat) (fns : EvalFns X) : List (List X × List Nat) → Except PyErr (List EvalRow)
  | [] => .ok []
  | env :: rest =>
    match evalEnv ord fns env with
    | .error e => .error e
    | .ok r => match evalLoop ord fns rest with
      | .error e => .error e
      | .ok rs => .ok (r :: rs)

/-- `evaluation(env_num, utility_f, config, model, eval_data)` (`experiment_helper.py:804-862`) on the
environments `eval_data[env_num]`: accuracy, average rank, and the recorded rows. With no environment the
last line divides by the integer zero. -/
def evaluation (ord : Finset Nat → List Nat) (fns : EvalFns X) (envs : List (List X × List Nat)) :
    Except PyErr (ℝ × ℝ × List EvalRow) :=
  match evalLoop ord fns envs with
  | .error e => .error e
  | .ok rows =>
    if envs.length = 0 then .error .zeroDivision
    else .ok (((rows.countP fun r => r.rank == 0 : ℕ) : ℝ) / envs.length,
      (((rows.map fun r => r.rank).sum : ℕ) : ℝ) / envs.length, rows)

end

end Lop
