import Verif.Model.Pareto
import Mathlib.Data.Finset.Basic
import Mathlib.Data.Finset.Range
import Mathlib.Data.Real.Sqrt
import Mathlib.Order.WithBot

/-! # Model of `src/lop/active_learning/ActiveLearner.py` and of the simple greedy learners

Sets of candidate indices are `Finset ℕ` (negative Python indices are not modelled). The order in which
Python iterates over a set is an oracle `ord`. -/

namespace Lop

/-- The choice functions a learner supplies: `select_greedy` and, if the class defines it,
`select_pair`. The first argument is the number of the call, so that random or stateful learners are
covered; the others are `indicies` and `prev_selection`. -/
structure Learner where
  greedy : Nat → Finset Nat → Finset Nat → Except PyErr Nat
  pair : Option (Nat → Finset Nat → Finset Nat → Except PyErr (Nat × Nat)) := none

/-- The argument `prefer_pts` (`ActiveLearner.py:189-206`): nothing, a set or list of indices, an
integer, the string `'pareto'`, or anything else. -/
inductive PreferArg
  | none
  | pts (s : Finset Nat)
  | count (n : Int)
  | pareto
  | other
  deriving DecidableEq

section prefer
variable {α : Type*} [LinearOrder α] {d : Nat}

/-- `get_prefered_set_of_pts` (`ActiveLearner.py:189-206`). -/
def getPreferred (defaultPareto : Bool) (cands : List (Fin d → α)) :
    PreferArg → Except PyErr (Finset Nat)
  | .pts s => .ok s
  | .none => if defaultPareto then .ok (getPareto cands).toFinset else .ok (Finset.range cands.length)
  | .pareto => .ok (getPareto cands).toFinset
  | .count n =>
    if n = 0 then .ok (Finset.range cands.length)
    else if n < 0 then .error .valueError
    else .ok (Finset.range n.toNat)
  | .other => .error .valueError

end prefer

section pick
variable {K : Type*} [LinearOrder K]

/-- NumPy integer-array indexing `a[idx]`. -/
def gather (a : List K) : List Nat → Except PyErr (List K)
  | [] => .ok []
  | i :: rest =>
    match a[i]? with
    | none => .error .indexError
    | some x => match gather a rest with
      | .error e => .error e
      | .ok xs => .ok (x :: xs)

/-- `indicies[np.argmax(vals)]` (`BestLearner.py:50`, `UCBLearner.py:70-72`). -/
def pickMax (idx : List Nat) (vals : List K) : Except PyErr Nat :=
  match npArgmax vals with
  | .error e => .error e
  | .ok k => match idx[k]? with
    | none => .error .indexError
    | some i => .ok i

/-- `indicies[np.argmin(vals)]` (`BestLearner.py:70`). -/
def pickMin (idx : List Nat) (vals : List K) : Except PyErr Nat :=
  match npArgmin vals with
  | .error e => .error e
  | .ok k => match idx[k]? with
    | none => .error .indexError
    | some i => .ok i

/-- `select_best(mu, prefer_pts, prev_selection)` (`ActiveLearner.py:213-228`). -/
def selectBest (ord : Finset Nat → List Nat) (mu : List K) (prefer prev : Finset Nat) :
    Except PyErr Nat :=
  let pns := prefer \ prev
  let pns := if pns = ∅ then Finset.range mu.length \ prev else pns
  if pns = ∅ then .error .exception
  else
    let l := ord pns
    match gather mu l with
    | .error e => .error e
    | .ok vals => pickMax l vals

/-- `BestLearner` (`BestLearner.py:43-50`). -/
def bestLearner (ord : Nat → Finset Nat → List Nat) (mu : List K) : Learner where
  greedy t idx _ := match gather mu (ord t idx) with
    | .error e => .error e
    | .ok vals => pickMax (ord t idx) vals

/-- `WorstLearner` (`BestLearner.py:63-70`). -/
def worstLearner (ord : Nat → Finset Nat → List Nat) (mu : List K) : Learner where
  greedy t idx _ := match gather mu (ord t idx) with
    | .error e => .error e
    | .ok vals => pickMin (ord t idx) vals

/-- `RandomLearner` (`RandomLearner.py:39-42`); `draw t n` is the `t`-th `np.random.randint(0, n)`,
which raises `ValueError` for `n = 0`. -/
def randomLearner (ord : Nat → Finset Nat → List Nat) (draw : Nat → Nat → Nat) : Learner where
  greedy t idx _ :=
    let l := ord t idx
    if l.length = 0 then .error .valueError
    else match l[draw t l.length]? with
      | none => .error .indexError
      | some i => .ok i

end pick

/-- `UCBLearner.select_greedy` (`UCBLearner.py:54-72`) for a GP model, whose `data` is the variance
vector; the variance is non-negative there (`PreferenceGP.py:146`, `GP.py:122`). -/
noncomputable def ucbLearner (ord : Nat → Finset Nat → List Nat) (mu var : List ℝ) (alpha : ℝ) :
    Learner where
  greedy t idx _ :=
    let l := ord t idx
    match gather mu l with
    | .error e => .error e
    | .ok ms => match gather var l with
      | .error e => .error e
      | .ok vs => pickMax l (List.zipWith (fun m v => m + alpha * Real.sqrt v) ms vs)

/-! ## `select` -/

/-- The `while` loop of `select` without `return_not_selected` (`ActiveLearner.py:132-166`).
`sel` = `sel_pts`, `pref` = `pref_not_sel`, `alln` = `all_not_selected`; `set.remove` of a missing
element raises `KeyError`. The fuel bounds the number of passes; every pass adds at least one point, so
`num_alts` passes suffice. -/
def selectLoop (L : Learner) (pairFirst : Bool) (N numAlts : Nat) (prev : Finset Nat) :
    Nat → Nat → List Nat → Finset Nat → Option (Finset Nat) → Except PyErr (List Nat)
  | 0, _, sel, _, _ => if sel.length < numAlts then .error .outsideModel else .ok sel
  | fuel + 1, t, sel, pref, alln =>
    if sel.length < numAlts then
      let seen := prev ∪ sel.toFinset
      let usePair := if pairFirst ∧ sel = [] then L.pair else none
      if pref ≠ ∅ then
        match usePair with
        | some p => match p t pref seen with
          | .error e => .error e
          | .ok (a, b) =>
            selectLoop L pairFirst N numAlts prev fuel (t + 1) (sel ++ [a, b]) ((pref.erase a).erase b) alln
        | none => match L.greedy t pref seen with
          | .error e => .error e
          | .ok i =>
            if i ∈ pref then
              selectLoop L pairFirst N numAlts prev fuel (t + 1) (sel ++ [i]) (pref.erase i) alln
            else .error .keyError
      else
        let rest := alln.getD ((Finset.range N \ prev) \ sel.toFinset)
        if rest = ∅ then .error .exception
        else match usePair with
        | some p => match p t rest seen with
          | .error e => .error e
          | .ok (a, b) =>
            if a ∈ rest ∧ b ∈ rest.erase a then
              selectLoop L pairFirst N numAlts prev fuel (t + 1) (sel ++ [a, b]) pref
                (some ((rest.erase a).erase b))
            else .error .keyError
        | none => match L.greedy t rest seen with
          | .error e => .error e
          | .ok i =>
            if i ∈ rest then
              selectLoop L pairFirst N numAlts prev fuel (t + 1) (sel ++ [i]) pref (some (rest.erase i))
            else .error .keyError
    else .ok sel

/-- Local variables of `select` with `return_not_selected`: `sel_pts`, `not_selected`,
`pref_not_sel`, `all_not_selected`. -/
structure RetState where
  sel : List Nat
  nsel : List Nat
  pref : Finset Nat
  alln : Finset Nat

/-- Placing a chosen index (`ActiveLearner.py:108-113` and `119-124`). -/
def retPlace (i : Nat) (s : RetState) : RetState :=
  if i ∈ s.pref ∨ s.pref = ∅ then
    { s with
      sel := s.sel ++ [i]
      pref := s.pref.erase i
      alln := s.alln.erase i }
  else
    { s with
      nsel := s.nsel ++ [i]
      alln := s.alln.erase i }

/-- One pass of the `while` loop of `select` with `return_not_selected`
(`ActiveLearner.py:96-124`). -/
def retStep (L : Learner) (pairFirst : Bool) (numAlts : Nat) (prev : Finset Nat) (t : Nat)
    (s : RetState) : Except PyErr RetState :=
  match decide (s.pref = ∅), s.nsel with
  | true, i :: ns => .ok (retPlace i { s with nsel := ns })
  | _, _ =>
    let seen := prev ∪ s.sel.toFinset
    match (if prev = ∅ ∧ pairFirst ∧ numAlts - s.sel.length > 1 then L.pair else none) with
    | some p => match p t s.pref seen with
      | .error e => .error e
      | .ok (a, b) => .ok (retPlace a (retPlace b s))
    | none => match L.greedy t s.alln seen with
      | .error e => .error e
      | .ok i => .ok (retPlace i s)

/-- The `while` loop of `select` with `return_not_selected` and the check after it
(`ActiveLearner.py:93-129`); `none` = still running when the fuel is used up. -/
def retLoop (L : Learner) (pairFirst : Bool) (numAlts : Nat) (prev : Finset Nat) :
    Nat → Nat → RetState → Option (Except PyErr (List Nat × List Nat))
  | 0, _, _ => none
  | fuel + 1, t, s =>
    if s.sel.length < numAlts ∧ s.alln ≠ ∅ then
      match retStep L pairFirst numAlts prev t s with
      | .error e => some (.error e)
      | .ok s' => retLoop L pairFirst numAlts prev fuel (t + 1) s'
    else if s.sel.length ≠ numAlts then some (.error .exception)
    else some (.ok (s.sel, s.nsel))

section select
variable {K : Type*} [LinearOrder K]

/-- `num_alts = min(num_alts, self.max_num_alts)` where the attribute exists
(`ActiveLearner.py:76-79`; `AbsAcquisition.py:90` and `AbsBayesInfo.py:25` set it to 1). -/
def effAlts : Option Nat → Nat → Nat
  | none, n => n
  | some m, n => min n m

/-- The choice of the best point before the loops (`ActiveLearner.py:84-92`): `sel_pts` and the updated
`prev_selection`. -/
def startSelection (alwaysBest : Bool) (ord : Finset Nat → List Nat) (mu : List K)
    (prefer prev : Finset Nat) : Except PyErr (List Nat × Finset Nat) :=
  if alwaysBest ∧ prev = ∅ then
    match selectBest ord mu prefer prev with
    | .error e => .error e
    | .ok b => .ok ([b], insert b prev)
  else .ok ([], prev)

/-- `ActiveLearner.select` (`ActiveLearner.py:74-172`) without `return_not_selected`. `mu` is the
prediction for the candidates (one value per candidate), `prefer` the result of
`get_prefered_set_of_pts`. -/
def learnerSelect (L : Learner) (alwaysBest pairFirst : Bool) (maxAlts : Option Nat)
    (ord : Finset Nat → List Nat) (mu : List K) (numAlts : Nat) (prefer prev : Finset Nat) :
    Except PyErr (List Nat) :=
  let numAlts := effAlts maxAlts numAlts
  match startSelection alwaysBest ord mu prefer prev with
  | .error e => .error e
  | .ok (sel, prev) =>
    selectLoop L pairFirst mu.length numAlts prev numAlts 0 sel (prefer \ prev) none

/-- `ActiveLearner.select` with `return_not_selected=True` (`ActiveLearner.py:93-131`) after at most
`fuel` passes. -/
def learnerSelectRet (L : Learner) (alwaysBest pairFirst : Bool) (maxAlts : Option Nat)
    (ord : Finset Nat → List Nat) (mu : List K) (numAlts : Nat) (prefer prev : Finset Nat) (fuel : Nat) :
    Option (Except PyErr (List Nat × List Nat)) :=
  let numAlts := effAlts maxAlts numAlts
  match startSelection alwaysBest ord mu prefer prev with
  | .error e => some (.error e)
  | .ok (sel, prev) =>
    retLoop L pairFirst numAlts prev fuel 0
      ⟨sel, [], prefer \ prev, (Finset.range mu.length \ prev) \ sel.toFinset⟩

end select

/-! ## Choosing a pair from a metric -/

section pickPair
variable {K : Type*} [LinearOrder K] {N : Nat}

/-- The metric after `np.fill_diagonal(info_gain, -np.inf)` (`ActiveLearner.py:272`). -/
def offDiag (m : Fin N → Fin N → K) (q : Fin N × Fin N) : WithBot K :=
  if q.1 = q.2 then ⊥ else (m q.1 q.2 : K)

/-- The loop computing `num_same` (`ActiveLearner.py:277-281`): `i` from `i0` up to `N-1`, stopping at
the first sorted entry whose value differs from the first one. `cur` is the current `num_same`. -/
def numSameLoop (m : Fin N → Fin N → K) (sorted : List (Fin N × Fin N)) :
    Nat → Nat → Nat → Nat
  | 0, _, cur => cur
  | k + 1, i, _ =>
    if sorted[i]?.map (offDiag m) ≠ sorted[0]?.map (offDiag m) then i
    else numSameLoop m sorted k (i + 1) i

/-- The fallback loop (`ActiveLearner.py:293-298`): the first sorted pair that is not entirely
previously selected, or the last entry. -/
def firstNotBoth (prev : Finset Nat) : List (Fin N × Fin N) → Option (Fin N × Fin N)
  | [] => none
  | [q] => some q
  | q :: q' :: rest =>
    if q.1.val ∈ prev ∧ q.2.val ∈ prev then firstNotBoth prev (q' :: rest) else some q

/-- `pick_pair_from_metric(info_gain, prev_selection)` (`ActiveLearner.py:269-300`). `sorted` is
`np.argsort(info_gain.flatten())[-1::-1]` (positions written as pairs); `draw n` is
`np.random.randint(0, n)`, which raises `ValueError` for `n = 0` (the `pdb.set_trace()` before it is a
debugger stop and not modelled). -/
def pickPair (m : Fin N → Fin N → K) (sorted : List (Fin N × Fin N)) (draw : Nat → Nat)
    (prev : Finset Nat) : Except PyErr (Fin N × Fin N) :=
  let numSame := numSameLoop m sorted N 0 0
  if numSame = 0 then .error .valueError
  else match sorted[draw numSame]? with
    | none => .error .indexError
    | some q =>
      if q.1.val ∈ prev ∧ q.2.val ∈ prev then
        match firstNotBoth prev sorted with
        | none => .error .indexError
        | some q' => .ok q'
      else .ok q

/-- `select_pair` of `AcquisitionSelection` and `BayesInfoGain` when there is training data
(`AcquisitionSelection.py:233-236`, `BayesInfoGain.py:259-267`): the pair picked from the metric of all
candidates; the argument `indicies` is not used. -/
def metricLearner (greedy : Nat → Finset Nat → Finset Nat → Except PyErr Nat)
    (m : Nat → Fin N → Fin N → K) (sorted : Nat → List (Fin N × Fin N)) (draw : Nat → Nat → Nat) :
    Learner where
  greedy := greedy
  pair := some fun t _ prev => match pickPair (m t) (sorted t) (draw t) prev with
    | .error e => .error e
    | .ok q => .ok (q.1.val, q.2.val)

/-- `select_pair` without training data: `np.random.choice(list(indicies), 2)`, with replacement for
`BayesInfoGain` (`BayesInfoGain.py:180-182`) and without for `AcquisitionSelection`
(`AcquisitionSelection.py:179-181`), where fewer than two indices raise `ValueError`.
`draw t idx` is the drawn pair. -/
def noDataLearner (greedy : Nat → Finset Nat → Finset Nat → Except PyErr Nat) (replace : Bool)
    (draw : Nat → Finset Nat → Nat × Nat) : Learner where
  greedy := greedy
  pair := some fun t idx _ =>
    if idx = ∅ ∨ (replace = false ∧ idx.card < 2) then .error .valueError else .ok (draw t idx)

end pickPair

end Lop
