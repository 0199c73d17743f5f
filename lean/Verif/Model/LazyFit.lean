import Verif.Model.Basic

/-! # Model of lazy fitting of `PreferenceGP` and of `AlignmentDecision.determine_query_type`

What matters here is which data and hyper-parameters a fit (`self.K`, `self.F`, `self.W`) was computed
from. FitLabels, points and hyper-parameters are abstract: `X` training points, `P`, `O`, `R` the pair,
ordinal and rating labels (the three entries of `y_train`), `H` hyper-parameters. The numerical work
of a fit is not modelled; `hopt` is what the hyper-parameter search does (the identity when it is
switched off). -/

namespace Lop

/-- `y_train` (`PreferenceModel.py:44-58`). -/
structure FitLabels (P O R : Type) where
  pref : Option P
  ord : Option O
  abs : Option R
  deriving DecidableEq, Repr

/-- A `PreferenceGP` object, as far as the freshness of its fit is concerned; `fit` records what the
attributes `K`, `F`, `W` were computed from. -/
structure LazyGP (X P O R H : Type) where
  x : Option X
  y : FitLabels P O R
  hyper : H
  optimized : Bool
  fit : Option (X × FitLabels P O R × H)
  deriving DecidableEq, Repr

variable {X P O R H : Type}

/-- The constructor (`PreferenceModel.py:40-61`). -/
def LazyGP.fresh (hyper : H) : LazyGP X P O R H := ⟨none, ⟨none, none, none⟩, hyper, false, none⟩

/-- `add`, successful (`PreferenceModel.py:187-279`): the new points and labels are whatever the
function computes (see `Model/Data.lean`); `optimized` becomes `False`. -/
def LazyGP.add (x : X) (y : FitLabels P O R) (m : LazyGP X P O R H) : LazyGP X P O R H :=
  { m with x := some x, y := y, optimized := false }

/-- `reset` (`PreferenceModel.py:166-169`); `optimized` keeps its value. -/
def LazyGP.reset (m : LazyGP X P O R H) : LazyGP X P O R H :=
  { m with x := none, y := ⟨none, none, none⟩ }

/-- `set_hyper` (`PreferenceGP.py` via `PreferenceModel.py:336-345`). -/
def LazyGP.setHyper (h : H) (m : LazyGP X P O R H) : LazyGP X P O R H := { m with hyper := h }

/-- `optimize` (`PreferenceGP.py:290-338`): `find_mode` fails without training points (the covariance
of `None`). `hopt` is the hyper-parameter search. -/
def LazyGP.optimize (hopt : X → FitLabels P O R → H → H) (m : LazyGP X P O R H) :
    Except PyErr (LazyGP X P O R H) :=
  match m.x with
  | none => .error .attributeError
  | some x =>
    let h := hopt x m.y m.hyper
    .ok { m with hyper := h, optimized := true, fit := some (x, m.y, h) }

/-- `predict` (`PreferenceGP.py:97-117`): the new state and the fit the prediction is made from,
`none` for the prior. `K` is the stored matrix. -/
def LazyGP.predict (hopt : X → FitLabels P O R → H → H) (m : LazyGP X P O R H) :
    Except PyErr (LazyGP X P O R H × Option (X × FitLabels P O R × H)) :=
  match m.x with
  | none => .ok (m, none)
  | some _ =>
    if m.optimized then .ok (m, m.fit)
    else match m.optimize hopt with
      | .error e => .error e
      | .ok m' => .ok (m', m'.fit)

/-- The alignment functions known to `alignment_between` (`AcquisitionBase.py:207-248`). -/
inductive AlignKind
  | rho | loglikelihood | epic | spearman | one
  deriving DecidableEq, Repr

/-- `alignment_between` for at least two representative points: implemented or not
(`AcquisitionBase.py:214-248`). -/
def alignImplemented : AlignKind → Except PyErr Unit
  | .rho | .loglikelihood => .error .notImplemented
  | .epic | .spearman | .one => .ok ()

/-- The objects touched by `determine_query_type`: the model and the attribute `pairwise_l.M`. -/
structure AlignEnv (X P O R H : Type) where
  model : LazyGP X P O R H
  M : Nat
  deriving DecidableEq, Repr

/-- `AlignmentDecision.determine_query_type` (`MixedTypeDecision.py:98-173`): the objects afterwards
and whether it returned. `better` is the comparison of the two mean alignments (line 173). Without
training points `get_representative_Q` returns `None` and the prediction at `None` fails (line 106).
Sampling and the printed statistics are left out. -/
def determineQueryTypeFit (hopt : X → FitLabels P O R → H → H) (kind : AlignKind) (better : Bool)
    (e : AlignEnv X P O R H) : AlignEnv X P O R H × Except PyErr Bool :=
  -- lines 101-102
  let e1 : AlignEnv X P O R H := { e with M := 8000 }
  match e1.model.x with
  | none => (e1, .error .attributeError)
  | some _ =>
    -- line 106
    match e1.model.predict hopt with
    | .error er => (e1, .error er)
    | .ok (m1, _) =>
      -- lines 112-113
      let pref := m1.y.pref
      let rating := m1.y.abs
      -- lines 121-122: `optimize()` does not search hyper-parameters
      match ({ m1 with y := { m1.y with abs := none } } : LazyGP X P O R H).optimize (fun _ _ h => h) with
      | .error er => ({ e1 with model := { m1 with y := { m1.y with abs := none } } }, .error er)
      | .ok m2 =>
        -- lines 130-134
        let m3 : LazyGP X P O R H := { m2 with y := { m2.y with pref := none, abs := rating } }
        match m3.optimize (fun _ _ h => h) with
        | .error er => ({ e1 with model := m3 }, .error er)
        | .ok m4 =>
          -- lines 143-144
          let m5 : LazyGP X P O R H := { m4 with y := { m4.y with pref := pref, abs := rating } }
          -- lines 147-148
          match alignImplemented kind with
          | .error er => ({ e1 with model := m5 }, .error er)
          -- lines 172-173
          | .ok _ => ({ model := m5, M := e.M }, .ok better)

/-- Calls on a model. -/
inductive LazyOp (X P O R H : Type)
  | add (x : X) (y : FitLabels P O R)
  | reset
  | optimize
  | predict
  | setHyper (h : H)

/-- The state after a call; a call that raises leaves the state as it is. -/
def lazyStep (hopt : X → FitLabels P O R → H → H) (m : LazyGP X P O R H) :
    LazyOp X P O R H → LazyGP X P O R H
  | .add x y => m.add x y
  | .reset => m.reset
  | .optimize => match m.optimize hopt with
    | .ok m' => m'
    | .error _ => m
  | .predict => match m.predict hopt with
    | .ok (m', _) => m'
    | .error _ => m
  | .setHyper h => m.setHyper h

end Lop
