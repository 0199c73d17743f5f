import Verif.Model.ProbitCache

/-! # Specification vocabulary: the scale a probit has been given -/

namespace Lop.Spec

/-- What a caller can do to the scale parameters of a probit through its methods. -/
inductive ScaleCall
  | setSigma (s : ℝ)
  | setV (v : ℝ)
  | setHyper (x : List ℝ)

/-- The scale of a pairwise probit after a call. -/
def relScaleAfter (optimize : Bool) (s : ℝ) : ScaleCall → ℝ
  | .setSigma t => t
  | .setHyper (t :: _) => if optimize then t else s
  | _ => s

/-- The (scale, precision) of a rating probit after a call. -/
def absScaleAfter (optimize vOnly : Bool) (sv : ℝ × ℝ) : ScaleCall → ℝ × ℝ
  | .setSigma t => (t, sv.2)
  | .setV w => (sv.1, w)
  | .setHyper (a :: t) =>
    match optimize, vOnly, t with
    | true, true, _ => (sv.1, a)
    | true, false, b :: _ => (a, b)
    | _, _, _ => sv
  | _ => sv

/-- Applying a call to the pairwise probit (`set_v` does not exist there). -/
noncomputable def relApply (p : RelScale) : ScaleCall → RelScale
  | .setSigma s => p.setSigma s
  | .setHyper x => (p.setHyper x).1
  | .setV _ => p

/-- Applying a call to the rating probit. -/
noncomputable def absApply (p : AbsScale) : ScaleCall → AbsScale
  | .setSigma s => p.setSigma s
  | .setHyper x => (p.setHyper x).1
  | .setV v => p.setV v

/-- The standardised utility difference of a pair under noise of scale `s`: the difference of the two
utilities in the direction of the preference, divided by `√2·s`. -/
noncomputable def standardised {n : Nat} (s : ℝ) (F : Fin n → ℝ) (y : IPair n) : ℝ :=
  y.dk * (F y.v - F y.u) / (Real.sqrt 2 * s)

/-- The pairwise probit computes with the scale it reports. -/
def RelCoherent (p : RelScale) : Prop :=
  (p.sigma ≠ 0 → (∀ (n : Nat) (F : Fin n → ℝ) (y : IPair n), p.zk F y = some (standardised p.sigma F y)) ∧
      p.i2var = some (1 / (2 * p.sigma ^ 2))) ∧
  (p.sigma = 0 → (∀ (n : Nat) (F : Fin n → ℝ) (y : IPair n), p.zk F y = none) ∧ p.i2var = none)

/-- The rating probit computes with the scale it reports: the mean rating is `Φ(f / (√2·sigma))`, cut
to `[eps, 1-eps]`. -/
def AbsCoherent (p : AbsScale) : Prop :=
  (p.sigma ≠ 0 →
    (∀ eps f : ℝ, p.mean eps f = some (min (1 - eps) (max eps (stdNormCdf (f / (Real.sqrt 2 * p.sigma)))))) ∧
      p.i2var = some (1 / (2 * p.sigma ^ 2))) ∧
  (p.sigma = 0 → (∀ eps f : ℝ, p.mean eps f = none) ∧ p.i2var = none)

/-- The ordinal probit computes with the scale it reports. -/
def OrdCoherent (p : OrdScale) : Prop :=
  (p.sigma ≠ 0 → (∀ b f : ℝ, p.zk b f = some ((b - f) / p.sigma)) ∧ p.ivar = some (1 / p.sigma ^ 2)) ∧
  (p.sigma = 0 → (∀ b f : ℝ, p.zk b f = none) ∧ p.ivar = none)

end Lop.Spec
