import Verif.Model.Pairs
import Verif.Model.Sampling
import Verif.Model.PrefProbit
import Verif.Model.SampleSets
import Mathlib.Analysis.SpecialFunctions.Log.Basic

/-! # Model of the synthetic users `src/lop/utilities/synthetic_user.py` and
`src/lop/utilities/HumanChoiceUser2.py`

Floats are idealised to real numbers. The utility function is a parameter evaluated row by row (see C69 for
when the code's functions have that form). Random draws are parameters: uniform draws `u` in [0,1), standard
normal draws `z`. The numerical optimiser `minimize_scalar` is an oracle. -/

namespace Lop

open Finset Spec

noncomputable section

/-- `sigmoid(x, k, b)` (`synthetic_user.py:16-17`). -/
def sigmoid (x k b : ℝ) : ℝ := 1 / (1 + Real.exp (-(k * x + b)))

/-- `PerfectUser.choose` (`synthetic_user.py:61-64`). -/
def perfectChoose {X : Type*} (f : X → ℝ) (query : List X) : Except PyErr Nat := npArgmax (query.map f)

/-- `SyntheticUser.choose_pairs` (`synthetic_user.py:40-43`). -/
def choosePairs {X : Type*} (choose : List X → Except PyErr Nat) (query : List X) :
    Except PyErr (List Pair) :=
  (choose query).map fun best => genPairsFromIdx best (List.range query.length)

/-- `PerfectUser.rate` (`synthetic_user.py:71-74`), with the default `k=4`, `b=0` of `sigmoid`. -/
def perfectRate {X : Type*} (f : X → ℝ) (x : X) : ℝ := sigmoid (f x) 4 0

/-- The parameters of a `HumanChoiceUser` (`synthetic_user.py:84-94`). -/
structure HumanUser where
  beta : ℝ := 1
  sigma : ℝ := 1
  bot : ℝ := 1 / 10
  top : ℝ := 9 / 10
  k : ℝ := 4
  b : ℝ := 0

/-- `HumanChoiceUser.rate` (`synthetic_user.py:257-261`) with standard normal draw `z`;
`np.random.normal` rejects a negative scale. -/
def humanRate {X : Type*} (u : HumanUser) (f : X → ℝ) (x : X) (z : ℝ) : Except PyErr ℝ :=
  if u.sigma < 0 then .error .valueError
  else .ok (sigmoid (f x * u.k + u.b + u.sigma * z) 1 0)

/-- `HumanChoiceUser.choose` (`synthetic_user.py:269-274`) with uniform draw `r`. -/
def humanChoose {X : Type*} (u : HumanUser) (f : X → ℝ) (r : ℝ) (query : List X) : Except PyErr Nat :=
  sampleHumanChoice (fun i : Fin query.length => f query[i] * u.k + u.b) u.beta r

/-- `get_k_b(f)` (`HumanChoiceUser2.py:55-64`) and the same formula in `HumanChoiceUser.learn_beta`
(`synthetic_user.py:179-188`), from the smallest and largest utility; equal ones divide by zero. -/
def getKB (bot top fMin fMax : ℝ) : Option (ℝ × ℝ) :=
  let minSig := Real.log bot - Real.log (1 - bot)
  let maxSig := Real.log top - Real.log (1 - top)
  if fMax - fMin = 0 then none
  else
    let k := (maxSig - minSig) / (fMax - fMin)
    some (k, minSig - k * fMin)

/-- The result of one `minimize_scalar` call: `res.x` and `res.fun` (`none` for `nan`). -/
structure MinRes where
  x : ℝ
  val : Option ℝ

/-- The loop `for i in range(10)` of `learn_sigma` / `learn_beta_pairwise` (`synthetic_user.py:212-216,
240-246`): result after at most `n` calls, the `i`-th call of the optimiser being `opt i`; `last` is the
result of the previous call. -/
def tuneLoop (opt : Nat → MinRes) : Nat → Nat → MinRes → MinRes × Nat
  | 0, i, last => (last, i)
  | n + 1, i, _ =>
    let res := opt i
    match res.val with
    | some v => if v < 0.02 then (res, i + 1) else tuneLoop opt n (i + 1) res
    | none => tuneLoop opt n (i + 1) res

/-- `learn_sigma` / `learn_beta_pairwise` (`synthetic_user.py:205-224,232-253`): the accepted value. The
comparison `res.fun > 0.02` is false for `nan`. -/
def tune (opt : Nat → MinRes) : Except PyErr ℝ :=
  let (res, _) := tuneLoop opt 10 0 (opt 0)
  match res.val with
  | some v => if v > 0.02 then .error .exception else .ok res.x
  | none => .ok res.x

/-- `HumanChoiceUser.learn_beta` (`synthetic_user.py:174-200`): the slope and offset computed from the
rewards are replaced by 4 and 0, then `beta` and `sigma` are tuned. The user is changed step by step, so an
exception leaves it with the assignments made before. `ys` are the utilities of the rewards, `Q ≥ 1` is `Q_size`; `np.max` of an
empty array raises: at once without rewards, and in the objective of the first optimiser when there is no query of `Q` rewards
(`human_choice_model.py:44`). -/
def humanLearnBeta (u : HumanUser) (ys : List ℝ) (Q : Nat) (optBeta optSigma : Nat → MinRes) :
    HumanUser × Option PyErr :=
  if ys = [] then (u, some .valueError)
  else
    let u := { u with k := 4, b := 0 }
    if sampleQsCount (ys.length.choose Q) = 0 then (u, some .valueError)
    else match tune optBeta with
      | .error e => (u, some e)
      | .ok beta =>
        let u := { u with beta := beta }
        match tune optSigma with
        | .error e => (u, some e)
        | .ok sigma => ({ u with sigma := sigma }, none)

/-- Mean of the entries that are not `nan` (`np.nanmean`); no such entry gives `nan`. -/
def nanMean (l : List (Option ℝ)) : Option ℝ :=
  let vals := l.filterMap id
  if vals = [] then none else some (vals.sum / vals.length)

/-- `HumanChoiceUser2.obj` (`HumanChoiceUser2.py:28-37`). The branch for overflowed exponentials (`inf/inf`
replaced by 1) does not occur over the reals. -/
def hcu2Obj (b : ℝ) (diffs : List ℝ) (p : ℝ) : Option ℝ :=
  (nanMean (diffs.map fun d =>
    let eb := Real.exp (|d| * b)
    let logs := eb / (1 + eb)
    if logs < 0.50000001 then none else some logs)).map fun m => (m - p) ^ 2

/-- `HumanChoiceUser2.rate_obj` (`HumanChoiceUser2.py:39-49`) for `sigma ≠ 0` (the search interval is
[0.001, 5]). -/
def hcu2RateObj (sigma : ℝ) (diffs : List ℝ) (p : ℝ) : Option ℝ :=
  (nanMean (diffs.map fun d =>
    let sigScalar := 1 / (Real.sqrt 2 * sigma)
    if |d| = 0 then none else some (Phi (|d| * sigScalar)))).map fun m => (m - p) ^ 2

/-- Python `min` of a list of numbers; empty raises. -/
def pyMinNat : List Nat → Except PyErr Nat
  | [] => .error .valueError
  | x :: xs => .ok (xs.foldl min x)

/-- `min_path_problems` (`HumanChoiceUser2.py:75-77`): smallest number of paths of any planning problem, at
most 500. `envs[i][j]` lists the utilities of the paths of problem `j` of environment `i`. -/
def minPaths (envs : List (List (List ℝ))) : Except PyErr Nat := do
  let perEnv ← envs.mapM fun env => pyMinNat (env.map List.length)
  let m ← pyMinNat perEnv
  pure (min m 500)

/-- One write `F[f_idx, idx] = f[samp_idx]` (`HumanChoiceUser2.py:98-104`) into the rows of `F`; rows not yet
written hold uninitialised memory (`none`). -/
def writeRow (F : List (Option (List ℝ))) (idx : Nat) (row : List ℝ) : Except PyErr (List (Option (List ℝ))) :=
  if idx < F.length then .ok (F.set idx (some row)) else .error .indexError

/-- The inner loop over the planning problems of environment `i` (`HumanChoiceUser2.py:97-104`); `n0` is
`len(rewards[0])`, `j` the number of the next problem. `samp i j` are the sampled path numbers. -/
def fillEnv (n0 i : Nat) (k b : ℝ) (samp : Nat → Nat → List Nat) :
    Nat → List (List ℝ) → List (Option (List ℝ)) → Except PyErr (List (Option (List ℝ)))
  | _, [], F => .ok F
  | j, prob :: rest, F => do
    let F ← writeRow F (i * n0 + j) ((samp i j).filterMap fun s => (prob[s]?).map fun f => f * k + b)
    fillEnv n0 i k b samp (j + 1) rest F

/-- The outer loop over the environments (`HumanChoiceUser2.py:95-104`). -/
def fillEnvs (n0 : Nat) (k b : ℝ) (samp : Nat → Nat → List Nat) :
    Nat → List (List (List ℝ)) → List (Option (List ℝ)) → Except PyErr (List (Option (List ℝ)))
  | _, [], F => .ok F
  | i, env :: rest, F => do
    let F ← fillEnv n0 i k b samp 0 env F
    fillEnvs n0 k b samp (i + 1) rest F

/-- The matrix `F` of sampled utilities of `HumanChoiceUser2.learn_beta` (`HumanChoiceUser2.py:86-104`) from
slope and offset; `np.empty` has `len(rewards) * len(rewards[0])` rows. -/
def calibMatrix (envs : List (List (List ℝ))) (k b : ℝ) (samp : Nat → Nat → List Nat) :
    Except PyErr (List (Option (List ℝ))) :=
  match envs with
  | [] => .error .indexError
  | e0 :: _ => fillEnvs e0.length k b samp 0 envs (List.replicate (envs.length * e0.length) none)

/-- Smallest and largest utility over all problems (`HumanChoiceUser2.py:89-90,122-123`); `min` and `np.min`
of nothing raise. -/
def utilRange (envs : List (List (List ℝ))) : Except PyErr (ℝ × ℝ) :=
  if envs.any fun e => e.isEmpty || e.any List.isEmpty then .error .valueError
  else match (envs.flatMap fun e => e.flatMap id) with
    | [] => .error .valueError
    | x :: xs => .ok (xs.foldl min x, xs.foldl max x)

/-- `HumanChoiceUser2.learn_beta` (`HumanChoiceUser2.py:72-126`) on the utilities of all paths. `samp m i j` are
the sampled path numbers (`m` of them); `optSigma`, `optBeta` are the two optimisers applied to the matrix
of sampled utilities. Equal utilities make the slope infinite or `nan`: `none` (whether a row of the matrix is out of
range does not depend on the slope). With a single path per problem there is no pair, the array of pairs is
one-dimensional and `pairs[:,0]` raises (`HumanChoiceUser2.py:106-107`). -/
def hcu2Learn (u : HumanUser) (envs : List (List (List ℝ))) (samp : Nat → Nat → Nat → List Nat)
    (optSigma optBeta : List (Option (List ℝ)) → ℝ) : Except PyErr (Option HumanUser) := do
  let m ← minPaths envs
  let (lo, hi) ← utilRange envs
  let kb := getKB u.bot u.top lo hi
  let F ← calibMatrix envs (kb.getD (0, 0)).1 (kb.getD (0, 0)).2 (samp m)
  if m < 2 then .error .indexError
  else pure (kb.map fun q => { u with sigma := optSigma F, beta := optBeta F, k := q.1, b := q.2 })

end

end Lop
