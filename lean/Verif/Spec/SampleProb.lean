import Mathlib.Probability.Independence.Basic

/-! # Specification for C89: repeated fair draws -/

namespace Lop.Spec

open MeasureTheory ProbabilityTheory

/-- Draws `rng t i`, the `i`-th of pass `t`, all of them allowed, of which the first ones of the passes are independent and give every allowed outcome with
probability at least `p`. (Nothing is assumed about the other draws of a pass.) -/
structure FairDraws {Ω X : Type*} [MeasurableSpace Ω] (μ : Measure Ω) (allowed : X → Prop) (p : ℝ) (rng : Nat → Nat → Ω → X) : Prop where
  fits : ∀ t i ω, allowed (rng t i ω)
  meas : ∀ t, @Measurable Ω X _ ⊤ (rng t 0)
  indep : iIndepFun (m := fun _ => (⊤ : MeasurableSpace X)) (fun t => rng t 0) μ
  pos : 0 < p
  prob : ∀ t x, allowed x → p ≤ μ.real {ω | rng t 0 ω = x}

end Lop.Spec
