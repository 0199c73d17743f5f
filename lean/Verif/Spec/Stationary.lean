import Mathlib.MeasureTheory.Measure.Prod
import Mathlib.MeasureTheory.Measure.WithDensity
import Mathlib.Analysis.SpecialFunctions.Log.ENNRealLogExp
import Mathlib.MeasureTheory.Measure.Lebesgue.Basic
import Mathlib.Probability.Independence.Basic
import Mathlib.Probability.Distributions.Gaussian.Real

/-! # Specification for C90: distributions of Markov chains -/

namespace Lop.Spec

open MeasureTheory

/-- The uniform distribution on [0, 1). -/
noncomputable def unitUniform : Measure ℝ := volume.restrict (Set.Ico 0 1)

/-- The measure with density `e ^ ll` with respect to `ν`. -/
noncomputable def targetOf {X : Type*} [MeasurableSpace X] (ν : Measure X) (ll : X → EReal) : Measure X :=
  ν.withDensity fun x => EReal.exp (ll x)

/-- Proposals `prop x z` with noise `z` of distribution `ρ` are reversible: the present and the proposed state can be exchanged. -/
def ReversibleProposal {X Z : Type*} [MeasurableSpace X] [MeasurableSpace Z] (ν : Measure X) (ρ : Measure Z) (prop : X → Z → X) : Prop :=
  (ν.prod ρ).map (fun q => (prop q.1 q.2, q.1)) = (ν.prod ρ).map (fun q => (q.1, prop q.1 q.2))

/-- Noise `z i` of distribution `ρ` and thresholds `u i`, uniform on [0, 1), of which each pair is independent of the starting point and of the pairs
before. -/
structure FreshDraws {Ω X Z : Type*} [MeasurableSpace Ω] [MeasurableSpace X] [MeasurableSpace Z] (μ : Measure Ω) (ρ : Measure Z) (x0 : Ω → X)
    (z : Nat → Ω → Z) (u : Nat → Ω → ℝ) : Prop where
  start : Measurable x0
  noise : ∀ i, Measurable (z i)
  thresh : ∀ i, Measurable (u i)
  law : ∀ i, μ.map (fun ω => (z i ω, u i ω)) = ρ.prod unitUniform
  indep : ∀ i, ProbabilityTheory.IndepFun (fun ω => (x0 ω, fun j : Fin i => (z j ω, u j ω))) (fun ω => (z i ω, u i ω)) μ

/-- Independent standard normal numbers. -/
noncomputable def stdNormals (d : Nat) : Measure (Fin d → ℝ) := Measure.pi fun _ => ProbabilityTheory.gaussianReal 0 1

end Lop.Spec
