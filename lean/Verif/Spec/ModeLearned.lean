import Verif.Spec.FindMode

/-! # Specification vocabulary: what the posterior mode of comparisons looks like -/

namespace Lop.Spec

noncomputable section

variable {n t : Nat}

/-- How strongly a comparison pulls its two points apart: `φ(z) / (Φ(z) √2 σ)`, where `z` is its standardised
difference. -/
def pairPull (sigma : ℝ) (F : Fin n → ℝ) (p : IPair n) : ℝ :=
  phi (pairZ sigma F p) / Phi (pairZ sigma F p) / (Real.sqrt 2 * sigma)

/-- A comparison of two different points with a definite answer. -/
def Strict (p : IPair n) : Prop := p.dk ≠ 0 ∧ p.u ≠ p.v

/-- The values say what the comparison says. -/
def Agrees (F : Fin n → ℝ) (p : IPair n) : Prop := 0 < (p.dk : ℝ) * (F p.v - F p.u)

/-- The opposite answer. -/
def opposite (p : IPair n) : IPair n := ⟨-p.dk, p.u, p.v⟩

/-- The comparison with its points renamed. -/
def renamed (e : Fin t → Fin n) (p : IPair t) : IPair n := ⟨p.dk, e p.u, e p.v⟩

end

end Lop.Spec
