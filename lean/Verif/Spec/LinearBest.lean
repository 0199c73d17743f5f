import Verif.Spec.Laplace

/-! # Specification vocabulary: best weights of a linear utility -/

namespace Lop.Spec

open Matrix

variable {n d : Nat}

/-- The linear utility with weights `u` contradicts no answer: the item that was preferred is worth at least as much. -/
def WeightsAgree (X : Matrix (Fin n) (Fin d) ℝ) (y : List (IPair n)) (u : Fin d → ℝ) : Prop :=
  ∀ p ∈ y, 0 ≤ (p.dk : ℝ) * ((X *ᵥ u) p.v - (X *ᵥ u) p.u)

/-- The linear utility with weights `u` is indifferent between the items of every comparison. -/
def WeightsIndifferent (X : Matrix (Fin n) (Fin d) ℝ) (y : List (IPair n)) (u : Fin d → ℝ) : Prop :=
  ∀ p ∈ y, (p.dk : ℝ) * ((X *ᵥ u) p.v - (X *ᵥ u) p.u) = 0

/-- No weights give the answers a higher likelihood than `w`. -/
def IsBestWeights (sigma : ℝ) (y : List (IPair n)) (X : Matrix (Fin n) (Fin d) ℝ) (w : Fin d → ℝ) : Prop :=
  ∀ w', pairLogLik sigma y (X *ᵥ w') ≤ pairLogLik sigma y (X *ᵥ w)

end Lop.Spec
