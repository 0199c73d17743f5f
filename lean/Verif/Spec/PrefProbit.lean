import Verif.Model.PrefProbit
import Verif.Spec.Normal

/-! # Specification of the pairwise (probit) preference model -/

namespace Lop.Spec

variable {n : Nat}

/-- Standardised value difference of a pair: `d (F_v - F_u) / (√2 σ)`; `d = -1` says `u` was preferred. -/
noncomputable def pairZ (sigma : ℝ) (F : Fin n → ℝ) (p : IPair n) : ℝ :=
  p.dk * (F p.v - F p.u) / (Real.sqrt 2 * sigma)

/-- Log-likelihood of a list of observed pairs. -/
noncomputable def pairLogLik (sigma : ℝ) (y : List (IPair n)) (F : Fin n → ℝ) : ℝ :=
  (y.map fun p => Real.log (Phi (pairZ sigma F p))).sum

/-- All standardised differences lie strictly between the clipping limits -30 and 100. -/
def PairsInRange (sigma : ℝ) (y : List (IPair n)) (F : Fin n → ℝ) : Prop :=
  ∀ p ∈ y, -30 < pairZ sigma F p ∧ pairZ sigma F p < 100

end Lop.Spec
