import Verif.Model.Kernel
import Mathlib.Algebra.Order.Field.Basic

/-! # Model of the hyper-parameter vectors
(`PreferenceModel.py:323-345`, `PreferenceGP.py:455-494`, the probits' `get_hyper`/`set_hyper`). -/

namespace Lop

/-- A category boundary: `-np.inf`, a number or `np.inf`. -/
inductive Bnd (R : Type*)
  | neg | fin (r : R) | pos
  deriving DecidableEq

/-- The argument of `OrdinalProbit.set_b`: a scalar or a sequence (`OrdinalProbit.py:77-89`). -/
inductive BArg (R : Type*)
  | scalar (b : R) | vec (b : List (Bnd R))

/-- Hyper-parameter fields of `PreferenceProbit` (`PreferenceProbit.py:50-58`). -/
structure PrefHyper (R : Type*) where
  sigma : R
  optimize : Bool := true
  deriving DecidableEq

/-- Hyper-parameter fields of `OrdinalProbit` (`OrdinalProbit.py:55-59`). -/
structure OrdHyper (R : Type*) where
  sigma : R
  n : Nat
  b : List (Bnd R)
  deriving DecidableEq

/-- Hyper-parameter fields of `AbsBoundProbit` (`AbsBoundProbit.py:126-140`). -/
structure AbsHyper (R : Type*) where
  sigma : R
  v : R
  optimize : Bool := true
  vOnly : Bool := true
  deriving DecidableEq

variable {R P : Type} [Field R] [LinearOrder R]

/-- `np.linspace(0, b, m)` (used at `OrdinalProbit.py:83`). -/
def linspace0 (b : R) (m : Nat) : List R :=
  if m = 1 then [0] else (List.range m).map fun (i : Nat) => (i : R) * (b / ((m : R) - 1))

/-- `OrdinalProbit.set_b` (`OrdinalProbit.py:80-89`). `n_ordinals = 0` makes `linspace` raise. -/
def OrdHyper.setB (o : OrdHyper R) : BArg R → Except PyErr (OrdHyper R)
  | .scalar b =>
    let b := |b|
    if o.n = 0 then .error .valueError
    else .ok { o with b := [.neg] ++ (linspace0 b (o.n - 1)).map .fin ++ [.pos] }
  | .vec b =>
    if b.length = o.n + 1 then .ok { o with b := b }
    else if b.length + 1 = o.n then .ok { o with b := [.neg] ++ b ++ [.pos] }
    else .error .valueError

/-- `OrdinalProbit.set_hyper` (`OrdinalProbit.py:64-66`); `hyper` shorter than 2 raises `IndexError`. -/
def OrdHyper.setHyper (o : OrdHyper R) : List R → Except PyErr (OrdHyper R)
  | s :: b :: _ => ({ o with sigma := s }).setB (.scalar b)
  | _ => .error .indexError

/-- The constructor (`OrdinalProbit.py:55-58`). -/
def OrdHyper.init (sigma b : R) (n : Nat) : Except PyErr (OrdHyper R) :=
  OrdHyper.setHyper { sigma := sigma, n := n, b := [] } [sigma, b]

/-- `OrdinalProbit.get_hyper` (`OrdinalProbit.py:69-74`): `b[-2]`, the last boundary but one. It is a
number for two or more ordinals; an infinite one (single ordinal) is outside this model of the
hyper-parameter vector. -/
def OrdHyper.getHyper (o : OrdHyper R) : Except PyErr (List R) :=
  match o.b.reverse with
  | _ :: .fin r :: _ => .ok [o.sigma, r]
  | _ :: _ :: _ => .error .outsideModel
  | _ => .error .indexError

/-- `PreferenceModel.set_num_ordinals` (`PreferenceModel.py:64-67`). -/
def OrdHyper.setNumOrdinals (o : OrdHyper R) (n : Nat) : Except PyErr (OrdHyper R) :=
  let o := { o with n := n }
  match o.getHyper with
  | .error e => .error e
  | .ok h => match h with
    | _ :: b :: _ => o.setB (.scalar b)
    | _ => .error .indexError

/-- `PreferenceProbit.get_hyper` (`PreferenceProbit.py:69-73`). -/
def PrefHyper.getHyper (p : PrefHyper R) : List R := if p.optimize then [p.sigma] else []

/-- `PreferenceProbit.set_hyper` (`PreferenceProbit.py:63-65`). -/
def PrefHyper.setHyper (p : PrefHyper R) (x : List R) : Except PyErr (PrefHyper R) :=
  if p.optimize then
    match x with
    | s :: _ => .ok { p with sigma := s }
    | [] => .error .indexError
  else .ok p

/-- `AbsBoundProbit.get_hyper` (`AbsBoundProbit.py:157-164`, `ProbitBase.py:82-83`). -/
def AbsHyper.getHyper (p : AbsHyper R) : List R :=
  if p.optimize then if p.vOnly then [p.v] else [p.sigma, p.v] else []

/-- `AbsBoundProbit.set_hyper` (`AbsBoundProbit.py:147-153`). -/
def AbsHyper.setHyper (p : AbsHyper R) (x : List R) : Except PyErr (AbsHyper R) :=
  if p.optimize then
    if p.vOnly then
      match x with
      | v :: _ => .ok { p with v := v }
      | [] => .error .indexError
    else
      match x with
      | s :: v :: _ => .ok { p with sigma := s, v := v }
      | _ => .error .indexError
  else .ok p

/-- The hyper-parameter state of a `PreferenceGP`: the three probits (`PreferenceModel.py:49`), which
of them have data (`y_train[i] is not None`), the kernel and the flag `hyperparam_only_probit`
(`PreferenceGP.py:70-82`). -/
structure HyperState (R P : Type*) where
  pref : PrefHyper R
  ord : OrdHyper R
  abs : AbsHyper R
  hasPref : Bool
  hasOrd : Bool
  hasAbs : Bool
  kern : KExpr R P
  onlyProbit : Bool := true
  deriving DecidableEq

/-- The ordinal part of the vector: `get_hyper()` if there is ordinal data
(`PreferenceModel.py:326-327`). -/
def HyperState.ordPart (s : HyperState R P) : Except PyErr (List R) :=
  if s.hasOrd then s.ord.getHyper else .ok []

/-- `PreferenceModel.get_hyper` (`PreferenceModel.py:323-329`, the loop over the three probits
unrolled). -/
def HyperState.getProbitHyper (s : HyperState R P) : Except PyErr (List R) := do
  let p := if s.hasPref then s.pref.getHyper else []
  let o ← s.ordPart
  let a := if s.hasAbs then s.abs.getHyper else []
  .ok (p ++ o ++ a)

/-- Loop body of `PreferenceModel.set_hyper` for the preference probit; returns the probit and the new
`cur_idx` (`PreferenceModel.py:340-345`). -/
def HyperState.setPrefPart (s : HyperState R P) (x : List R) (cur : Nat) :
    Except PyErr (PrefHyper R × Nat) :=
  if s.hasPref then do
    let e := cur + s.pref.getHyper.length
    let p ← s.pref.setHyper ((x.take e).drop cur)
    .ok (p, e)
  else .ok (s.pref, cur)

/-- The same for the ordinal probit. -/
def HyperState.setOrdPart (s : HyperState R P) (x : List R) (cur : Nat) :
    Except PyErr (OrdHyper R × Nat) :=
  if s.hasOrd then do
    let h ← s.ord.getHyper
    let e := cur + h.length
    let p ← s.ord.setHyper ((x.take e).drop cur)
    .ok (p, e)
  else .ok (s.ord, cur)

/-- The same for the absolute-rating probit. -/
def HyperState.setAbsPart (s : HyperState R P) (x : List R) (cur : Nat) :
    Except PyErr (AbsHyper R × Nat) :=
  if s.hasAbs then do
    let e := cur + s.abs.getHyper.length
    let p ← s.abs.setHyper ((x.take e).drop cur)
    .ok (p, e)
  else .ok (s.abs, cur)

/-- `PreferenceModel.set_hyper` (`PreferenceModel.py:336-345`, loop unrolled).
Probits set before an error keep their new value in Python; this model drops the state on error. -/
def HyperState.setProbitHyper (s : HyperState R P) (x : List R) : Except PyErr (HyperState R P) := do
  let (pref, cur) ← s.setPrefPart x 0
  let (ord, cur) ← s.setOrdPart x cur
  let (abs, _) ← s.setAbsPart x cur
  .ok { s with pref := pref, ord := ord, abs := abs }

/-- `PreferenceGP.get_hyper` (`PreferenceGP.py:455-465`). -/
def HyperState.getHyper (s : HyperState R P) : Except PyErr (List R) := do
  let p ← s.getProbitHyper
  if s.onlyProbit then .ok p else .ok (p ++ s.kern.getParam)

/-- `PreferenceGP.set_hyper` (`PreferenceGP.py:472-479`). -/
def HyperState.setHyper (s : HyperState R P) (x : List R) : Except PyErr (HyperState R P) := do
  let h ← s.getProbitHyper
  let num := h.length
  let s ← s.setProbitHyper (x.take num)
  if s.onlyProbit then .ok s
  else do
    let k ← s.kern.setParam (x.drop num)
    .ok { s with kern := k }

/-! ### Random restarts -/

/-- The prior parameters (shape, scale) (`PreferenceProbit.py:55-56`). -/
def prefSigmaPrior : R × R := (2, 1 / 10)

/-- `AbsBoundProbit.py:133-134`. -/
def absSigmaPrior : R × R := (1, 1)

/-- `AbsBoundProbit.py:136-137`. -/
def absVPrior : R × R := (2, 25)

/-- The priors of the leaf kernels' parameters in parameter order (`RBF_kern.py:52-55`,
`LinearKern.py:53-58`, `PeriodicKern.py:53-58`). -/
def KLeaf.priors : KLeaf R P → List (R × R)
  | .rbf .. => [(10, 1 / 10), (3, 2 / 5)]
  | .zeroed .. => [(10, 1 / 10), (3, 2 / 5)]
  | .linear .. => [(4, 1 / 4), (3, 1 / 5), (2, 1 / 2)]
  | .periodic .. => [(4, 1 / 4), (3, 1 / 5), (2, 1 / 2)]

/-- Which gamma priors `PreferenceProbit.randomize_hyper` samples, in order
(`PreferenceProbit.py:78-83`). -/
def PrefHyper.randomRequests (p : PrefHyper R) : List (R × R) :=
  if p.optimize then [prefSigmaPrior] else []

/-- `AbsBoundProbit.randomize_hyper` (`AbsBoundProbit.py:169-175`): `optimize_parameters` is not
consulted. -/
def AbsHyper.randomRequests (p : AbsHyper R) : List (R × R) :=
  if p.vOnly then [absVPrior] else [absSigmaPrior, absVPrior]

/-- `OrdinalProbit` inherits `ProbitBase.randomize_hyper`, which returns nothing
(`ProbitBase.py:99-100`). -/
def OrdHyper.randomRequests (_ : OrdHyper R) : List (R × R) := []

/-- `randomize_hyper` of the kernels; `DualKern` inherits `KernelFunc.randomize_hyper`, which returns
nothing (`KernelFunc.py:86-87`, `RBF_kern.py:89-92`, `LinearKern.py:93-97`, `PeriodicKern.py:108-112`). -/
def KExpr.randomRequests : KExpr R P → List (R × R)
  | .leaf k => k.priors
  | .dual .. => []

/-- The values of a list of `np.random.gamma(shape, scale)` calls; `rng i k θ` is the result of the
`i`-th call, were it made with `k, θ`. -/
def drawAll (rng : Nat → R → R → R) (reqs : List (R × R)) : List R :=
  reqs.zipIdx.map fun (q, i) => rng i q.1 q.2

/-- `PreferenceGP.randomize_hyper` (`PreferenceGP.py:483-494`): all three probits are sampled, whether
or not they have data; with `hyperparam_only_probit` the samples are set once before and once after
the kernel is sampled. -/
def HyperState.randomizeHyper (s : HyperState R P) (rng : Nat → R → R → R) :
    Except PyErr (HyperState R P) := do
  let reqs := s.pref.randomRequests ++ s.ord.randomRequests ++ s.abs.randomRequests
  let s ← if s.onlyProbit then s.setHyper (drawAll rng reqs) else .ok s
  s.setHyper (drawAll rng (reqs ++ s.kern.randomRequests))

end Lop
