import Verif.Spec.Hyper
import Mathlib.Probability.Distributions.Gamma
import Mathlib.Analysis.Calculus.Deriv.Basic
import Mathlib.Analysis.InnerProductSpace.PiL2

/-! # Specification vocabulary for the hyper-parameter priors and the search -/

namespace Lop.Spec

open Filter Topology

noncomputable section

variable {P : Type}

/-- Logarithm of the gamma density with shape `q.1` and scale `q.2`. -/
def logGammaDensity (q : ℝ × ℝ) (x : ℝ) : ℝ := Real.log (ProbabilityTheory.gammaPDFReal q.1 (1 / q.2) x)

/-- The parameters that are given a gamma prior by the code: the rating spread and the kernel
parameters. (The preference noise and the rating precision only get a penalty for bad signs, the
ordinal parameters nothing.) -/
def Slot.hasGammaPrior : Slot → Prop
  | .absSigma => True
  | .kern _ _ => True
  | _ => False

/-- The values at which no penalty and no clipping is active. -/
def Slot.inRange : Slot → ℝ → Prop
  | .prefSigma, x => 0 < x
  | .absV, x => 0 < x
  | .absSigma, x => 1 / 1000000 < x
  | .kern _ _, x => 1 / 1000000 < x
  | _, _ => True

/-- Log density of one hyper-parameter under its gamma prior (0 if it has none). -/
def slotLogPrior (s : HyperState ℝ P) (slot : Slot) : ℝ :=
  match priorOf s slot, readSlot s slot with
  | some q, some x => logGammaDensity q x
  | _, _ => 0

/-- `g` is the derivative at `t` of a computation that near `t` succeeds with a finite number. -/
def DerivOfLog {ε : Type*} (f : ℝ → Except ε EReal) (g t : ℝ) : Prop :=
  ∃ V : ℝ → ℝ, (∀ᶠ s in 𝓝 t, f s = .ok ((V s : ℝ) : EReal)) ∧ HasDerivAt V g t

/-- Length of the average of the vectors `w` (of dimension `d`) in Euclidean space. -/
def averageLength (d : Nat) (w : List (List ℝ)) : ℝ :=
  ‖(WithLp.toLp 2 fun j : Fin d => (∑ k : Fin w.length, (w.get k).getD j 0) / w.length :
    EuclideanSpace ℝ (Fin d))‖

end

end Lop.Spec
