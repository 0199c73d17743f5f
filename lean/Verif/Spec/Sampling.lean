import Mathlib.Analysis.SpecialFunctions.Exp
import Mathlib.Data.EReal.Operations

/-! # Specification vocabulary for C11 and C14 -/

namespace Lop.Spec

/-- The Luce-Shepard / Boltzmann choice probability. -/
noncomputable def boltzmann {n : Nat} (r : Fin n → ℝ) (p : ℝ) (i : Fin n) : ℝ :=
  Real.exp (p * r i) / ∑ j, Real.exp (p * r j)

/-- `chain` is a run of a propose/accept process from `x0`: at each time the next state is the current
state or the proposal made from it; a proposal of log-likelihood `-∞` is never taken, and a proposal
at least as likely as the (finite) current one always is. -/
structure MetropolisRun {X : Type*} (ll : X → EReal) (prop : Nat → X → X) (x0 : X)
    (chain : Nat → X) : Prop where
  start : chain 0 = x0
  step : ∀ i, chain (i + 1) = chain i ∨ chain (i + 1) = prop i (chain i)
  uphill : ∀ i (a : ℝ), ll (chain i) = a → (a : EReal) ≤ ll (prop i (chain i)) →
    chain (i + 1) = prop i (chain i)
  impossible : ∀ i, ll (prop i (chain i)) = ⊥ → chain (i + 1) = chain i

end Lop.Spec
