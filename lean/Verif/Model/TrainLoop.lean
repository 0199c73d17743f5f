import Verif.Model.Evaluation
import Verif.Model.SynthUser
import Mathlib.Algebra.Order.Floor.Ring
import Mathlib.Algebra.Order.Archimedean.Real.Basic

/-! # Model of the training loop of the experiments
(`experiments/experiment_helper.py:447-474`, `659-800`)

`KMedoids`, `ConvexHull`, `np.random.choice`, the query selection, the answers of the user, `model.add` and the
evaluation are parameters: what the call gives, a value or an exception. -/

namespace Lop

noncomputable section

variable {X : Type*}

/-! ## Reducing the candidates -/

/-- `list(set(range(n)) - set(idxs))` (`experiment_helper.py:452`, `470`); `ord` is the order in which Python lists
a set. -/
def complementIdx (ord : Finset Nat → List Nat) (n : Nat) (idxs : List Nat) : List Nat :=
  ord (Finset.range n \ idxs.toFinset)

/-- The outside world of the reduction: `kmed rows k` is `KMedoids(n_clusters=k).fit(rows).medoid_indices_`,
`hull rows` is `ConvexHull(rows).vertices`, `choice n k` is `np.random.choice(n, k, replace=False)`. -/
structure DownEnv (X : Type*) where
  kmed : List X → Nat → Except PyErr (List Nat)
  hull : List X → Except PyErr (List Nat)
  choice : Nat → Int → Except PyErr (List Nat)
  ord : Finset Nat → List Nat

/-- `KMedoids(n_clusters=k).fit(rows).cluster_centers_`: the medoids are rows. -/
def centers (E : DownEnv X) (rows : List X) (k : Nat) : Except PyErr (List X) :=
  match E.kmed rows k with
  | .error e => .error e
  | .ok idx => takeRows rows idx

/-- `downsample_hull(X, num_downselect)` (`experiment_helper.py:447-463`). -/
def downsampleHull (E : DownEnv X) (rows : List X) (n : Nat) : Except PyErr (List X) :=
  match E.hull rows with
  | .error e => .error e
  | .ok h =>
    if h.length < n then
      match takeRows rows (complementIdx E.ord rows.length h) with
      | .error e => .error e
      | .ok rest => match centers E rest (n - h.length) with
        | .error e => .error e
        | .ok c => match takeRows rows h with
          | .error e => .error e
          | .ok hr => .ok (hr ++ c)
    else
      match takeRows rows h with
      | .error e => .error e
      | .ok hr => centers E hr n

/-- `int(kmed_pct * num_downselect)`: truncation towards zero. -/
def intTrunc (x : ℝ) : Int := if 0 ≤ x then ⌊x⌋ else ⌈x⌉

/-- `downsample_kmed_rand(X, num_downselect, kmed_pct)` (`experiment_helper.py:465-474`). A negative number of
clusters is passed on as zero, which `KMedoids` refuses in the same way. -/
def downsampleKmedRand (E : DownEnv X) (pct : ℝ) (rows : List X) (n : Nat) : Except PyErr (List X) :=
  let numKmed := intTrunc (pct * n)
  let numRand := (n : Int) - numKmed
  match E.choice rows.length numRand with
  | .error e => .error e
  | .ok ri => match takeRows rows (complementIdx E.ord rows.length ri) with
    | .error e => .error e
    | .ok rest => match centers E rest numKmed.toNat with
      | .error e => .error e
      | .ok c => match takeRows rows ri with
        | .error e => .error e
        | .ok rr => .ok (c ++ rr)

/-- The reduction of the candidates in the training loop (`experiment_helper.py:707-725`). `limit` is
`config['downselect_num']`; another value of `use_kmedoid`, such as the default `True` of `train_and_eval`, leaves
the candidates as they are. -/
def downselect (E : DownEnv X) (useKmedoid : String) (limit : Nat) (rows : List X) : Except PyErr (List X) :=
  if useKmedoid = "True" ∨ useKmedoid = "true" then
    if rows.length > limit then centers E rows 60 else .ok rows
  else if useKmedoid = "uni" then
    if rows.length > limit then
      match E.choice rows.length limit with
      | .error e => .error e
      | .ok s => takeRows rows s
    else .ok rows
  else if useKmedoid = "downhull" then
    if rows.length > limit then downsampleHull E rows limit else .ok rows
  else if useKmedoid = "medrand" then
    if rows.length > limit then downsampleKmedRand E (1 / 2) rows limit else .ok rows
  else .ok rows

/-! ## One training step -/

/-- What one pass of the loop gets from outside: the candidates (after the reduction), what `model.select` gives
(indices shown, indices not shown), the user, the true utility, and what the calls of `model.add` give. -/
structure TrainIn (X : Type*) where
  rewards : Except PyErr (List X)
  select : Except PyErr (List Nat × List Nat)
  choose : List X → Except PyErr Nat
  util : X → ℝ
  rate : Except PyErr Unit
  addShown : Except PyErr Unit
  addHidden : Except PyErr Unit

/-- `PAIR_QUERY` and `ABS_QUERY` (`experiment_helper.py:477-478`). -/
def pairQuery : Int := 0
/-- `ABS_QUERY`. -/
def absQuery : Int := 1

/-- `query_is_correct[itr+1] = (correct_idx == y_pairs[0][1])` (`experiment_helper.py:781`). -/
def correctFlag (correct : Nat) (pairs : List Pair) : Except PyErr Int :=
  match pairs with
  | [] => .error .indexError
  | p :: _ => .ok (if correct = p.u then 1 else 0)

/-- The `choose1` and `ranking` branch (`experiment_helper.py:727-753`); the written entries of
`query_type_is_abs` and `query_is_correct`. The pairs of `generate_ranking_pairs` are not computed here. -/
def stepChoose (ranking perfect : Bool) (i : TrainIn X) (rows : List X) : Except PyErr (Int × Int) :=
  match i.select with
  | .error e => .error e
  | .ok (sel, hidden) => match takeRows rows sel with
    | .error e => .error e
    | .ok q =>
      match (if ranking then (if perfect then Except.ok [] else .error .exception) else choosePairs i.choose q) with
      | .error e => .error e
      | .ok _ => match i.addShown with
        | .error e => .error e
        | .ok _ =>
          match (if hidden.length > 0 then i.addHidden else .ok ()) with
          | .error e => .error e
          | .ok _ => .ok (pairQuery, -1)

/-- The `rating` branch (`experiment_helper.py:754-763`): `model.select(rewards, 1)[0]`. -/
def stepRating (i : TrainIn X) (rows : List X) : Except PyErr (Int × Int) :=
  match i.select with
  | .error e => .error e
  | .ok (sel, _) => match sel with
    | [] => .error .indexError
    | s :: _ => match rows[s]? with
      | none => .error .indexError
      | some _ => match i.rate with
        | .error e => .error e
        | .ok _ => match i.addShown with
          | .error e => .error e
          | .ok _ => .ok (absQuery, -1)

/-- The `switch` branch (`experiment_helper.py:764-781`); the entry of `query_is_correct` of a rating stays -1. -/
def stepSwitch (i : TrainIn X) (rows : List X) : Except PyErr (Int × Int) :=
  match i.select with
  | .error e => .error e
  | .ok (sel, _) => match takeRows rows sel with
    | .error e => .error e
    | .ok q =>
      if sel.length = 1 then
        match i.rate with
        | .error e => .error e
        | .ok _ => match i.addShown with
          | .error e => .error e
          | .ok _ => .ok (absQuery, -1)
      else match npArgmax (q.map i.util) with
        | .error e => .error e
        | .ok correct => match choosePairs i.choose q with
          | .error e => .error e
          | .ok pairs => match i.addShown with
            | .error e => .error e
            | .ok _ => match correctFlag correct pairs with
              | .error e => .error e
              | .ok f => .ok (pairQuery, f)

/-- One pass of the loop before its evaluation (`experiment_helper.py:727-781`); another selection type asks nothing
and leaves the entries at -1. -/
def trainStep (selType : String) (perfect : Bool) (i : TrainIn X) : Except PyErr (Int × Int) :=
  match i.rewards with
  | .error e => .error e
  | .ok rows =>
    if selType = "choose1" ∨ selType = "ranking" then stepChoose (decide (selType = "ranking")) perfect i rows
    else if selType = "rating" then stepRating i rows
    else if selType = "switch" then stepSwitch i rows
    else .ok (-1, -1)

/-- The training loop (`experiment_helper.py:688-797`): the entries of the two arrays from position `itr+1` on.
`evals` are the evaluations after the steps. -/
def trainLoop {ρ : Type*} (selType : String) (perfect : Bool) :
    List (TrainIn X × Except PyErr ρ) → Except PyErr (List (Int × Int) × List ρ)
  | [] => .ok ([], [])
  | (i, ev) :: rest =>
    match trainStep selType perfect i with
    | .error e => .error e
    | .ok q => match ev with
      | .error e => .error e
      | .ok m => match trainLoop selType perfect rest with
        | .error e => .error e
        | .ok (qs, ms) => .ok (q :: qs, m :: ms)

/-- The arrays returned by `train_and_eval` (`experiment_helper.py:659-800`): the evaluation of the untrained model
comes first and its entries of the query arrays are -1. -/
def trainRun {ρ : Type*} (selType : String) (perfect : Bool) (eval0 : Except PyErr ρ)
    (steps : List (TrainIn X × Except PyErr ρ)) : Except PyErr (List (Int × Int) × List ρ) :=
  match eval0 with
  | .error e => .error e
  | .ok m0 => match trainLoop selType perfect steps with
    | .error e => .error e
    | .ok (qs, ms) => .ok ((-1, -1) :: qs, m0 :: ms)

end

end Lop
