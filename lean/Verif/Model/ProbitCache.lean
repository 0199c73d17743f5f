import Verif.Model.AbsProbit
import Verif.Model.PrefProbit
import Verif.Model.Basic

/-! # Model of the scale parameters of the probits together with the constants stored beside them
(`src/lop/probits/PreferenceProbit.py`, `OrdinalProbit.py`, `AbsBoundProbit.py`).

The other models of the probits are functions of the current scale; here the objects are modelled with
the constants `_isqrt2sig`, `_i2var`, `_isigma`, `_ivar` that the code computes once and then uses. -/

namespace Lop

/-- `1.0 / x` for a numpy number: infinite (`none`) for `x = 0`. -/
noncomputable def recipOpt (x : ℝ) : Option ℝ := if x = 0 then none else some (1 / x)

/-- The fields `sigma`, `_isqrt2sig`, `_i2var`, `optimize_parameters` of a `PreferenceProbit`
(`PreferenceProbit.py:49-57,88-91`). `none` is an infinite constant. -/
structure RelScale where
  sigma : ℝ
  isqrt2sig : Option ℝ
  i2var : Option ℝ
  optimize : Bool

/-- `PreferenceProbit.set_sigma` (`PreferenceProbit.py:88-91`). -/
noncomputable def RelScale.setSigma (p : RelScale) (s : ℝ) : RelScale :=
  let c := recipOpt (s * Real.sqrt 2)
  { p with sigma := s, isqrt2sig := c, i2var := c.map (· ^ 2) }

/-- The constructor (`PreferenceProbit.py:49-57`). -/
noncomputable def RelScale.init (s : ℝ) (optimize : Bool) : RelScale :=
  RelScale.setSigma { sigma := s, isqrt2sig := none, i2var := none, optimize := optimize } s

/-- `PreferenceProbit.set_hyper` (`PreferenceProbit.py:63-65`). -/
noncomputable def RelScale.setHyper (p : RelScale) (x : List ℝ) : RelScale × Option PyErr :=
  if p.optimize then
    match x with
    | s :: _ => (p.setSigma s, none)
    | [] => (p, some .indexError)
  else (p, none)

/-- `PreferenceProbit.get_hyper` (`PreferenceProbit.py:69-73`). -/
def RelScale.getHyper (p : RelScale) : List ℝ := if p.optimize then [p.sigma] else []

/-- The plain attribute assignment `gp.probits[0].sigma = args.sigma`
(`examples/models/pref_gp.py:52`). -/
def RelScale.assignSigma (p : RelScale) (s : ℝ) : RelScale := { p with sigma := s }

/-- One entry of `z_k` as computed from the stored constant (`PreferenceProbit.py:106-107`); `none`:
not a finite number. -/
def RelScale.zk {n : Nat} (p : RelScale) (F : Fin n → ℝ) (y : IPair n) : Option ℝ :=
  p.isqrt2sig.map fun c => c * y.dk * (F y.v - F y.u)

/-- The fields `sigma`, `_isqrt2sig`, `_i2var`, `v`, `optimize_parameters`, `optimize_v_only` of an
`AbsBoundProbit` (`AbsBoundProbit.py:126-140,216-224`). -/
structure AbsScale where
  sigma : ℝ
  isqrt2sig : Option ℝ
  i2var : Option ℝ
  v : ℝ
  optimize : Bool
  vOnly : Bool

/-- `AbsBoundProbit.set_sigma` (`AbsBoundProbit.py:216-219`). -/
noncomputable def AbsScale.setSigma (p : AbsScale) (s : ℝ) : AbsScale :=
  let c := recipOpt (s * Real.sqrt 2)
  { p with sigma := s, isqrt2sig := c, i2var := c.map (· ^ 2) }

/-- `AbsBoundProbit.set_v` (`AbsBoundProbit.py:223-224`). -/
def AbsScale.setV (p : AbsScale) (v : ℝ) : AbsScale := { p with v := v }

/-- The constructor (`AbsBoundProbit.py:126-140`). Before the two setters run the fields do not exist; the zeros stand for
that. -/
noncomputable def AbsScale.init (s v : ℝ) (optimize vOnly : Bool) : AbsScale :=
  let p : AbsScale := ⟨0, none, none, 0, optimize, vOnly⟩
  (p.setSigma s).setV v

/-- `AbsBoundProbit.set_hyper` (`AbsBoundProbit.py:147-153`): `hyper[1]` is read before anything is
changed. -/
noncomputable def AbsScale.setHyper (p : AbsScale) (x : List ℝ) : AbsScale × Option PyErr :=
  if p.optimize then
    if p.vOnly then
      match x with
      | v :: _ => (p.setV v, none)
      | [] => (p, some .indexError)
    else
      match x with
      | s :: v :: _ => ((p.setV v).setSigma s, none)
      | _ => (p, some .indexError)
  else (p, none)

/-- The mean of the rating of a point with utility `f`, from the stored constant
(`mean_link`, `AbsBoundProbit.py:237-240`); `none`: the constant is infinite. -/
noncomputable def AbsScale.mean (p : AbsScale) (eps f : ℝ) : Option ℝ :=
  p.isqrt2sig.map fun c => npClip eps (1 - eps) (stdNormCdf (f * c))

/-- The fields `sigma`, `_isigma`, `_ivar` of an `OrdinalProbit` (`OrdinalProbit.py:94-97`). -/
structure OrdScale where
  sigma : ℝ
  isigma : Option ℝ
  ivar : Option ℝ

/-- `OrdinalProbit.set_sigma` (`OrdinalProbit.py:94-97`). Dividing by zero raises
`ZeroDivisionError` for a Python number (after `self.sigma` has been assigned) and gives infinity for
a numpy number (`isNumpy`). -/
noncomputable def OrdScale.setSigma (p : OrdScale) (isNumpy : Bool) (s : ℝ) :
    OrdScale × Option PyErr :=
  if s = 0 ∧ isNumpy = false then ({ p with sigma := s }, some .zeroDivision)
  else ({ sigma := s, isigma := recipOpt s, ivar := (recipOpt s).map (· ^ 2) }, none)

/-- `z_k` of the ordinal probit for a finite threshold `b` (`OrdinalProbit.py:113-119`). -/
def OrdScale.zk (p : OrdScale) (b f : ℝ) : Option ℝ := p.isigma.map fun c => c * (b - f)

end Lop
