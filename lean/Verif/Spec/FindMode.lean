import Verif.Model.FindMode
import Verif.Spec.Laplace

/-! # Specification vocabulary for `find_mode` -/

namespace Lop.Spec

open Matrix

noncomputable section

variable {n : Nat}

/-- Maximiser of the log posterior density of pair labels under the prior covariance `K`. -/
def IsMode (sigma : ℝ) (y : List (IPair n)) (K : Matrix (Fin n) (Fin n) ℝ) (m : Fin n → ℝ) : Prop :=
  ∀ G, logPosterior K (pairLogLik sigma y) G ≤ logPosterior K (pairLogLik sigma y) m

/-- Labels that consist of pairs only. -/
def onlyPairs (y : List (IPair n)) : TrainLabels n := ⟨some y, none, none⟩

/-- Sum of the absolute values of all entries. -/
def entrySum (A : Matrix (Fin n) (Fin n) ℝ) : ℝ := ∑ i, ∑ j, |A i j|

/-- Largest possible total curvature of the pair labels: `Σ dk² / (2 σ²)`. -/
def pairCurvature (sigma : ℝ) (y : List (IPair n)) : ℝ := (y.map fun p => (p.dk : ℝ) ^ 2 / (2 * sigma ^ 2)).sum

/-- Factor between the tolerance of `find_mode` and the error of the value at point `i`. -/
def modeErrorFactor (sigma : ℝ) (y : List (IPair n)) (K : Matrix (Fin n) (Fin n) ℝ) (i : Fin n) : ℝ :=
  1 + 32 / 3 * Real.sqrt (K i i *
    (entrySum K⁻¹ + 8 * pairCurvature sigma y + 4 * pairCurvature sigma y ^ 2 * entrySum K))

/-- Signal-to-noise ratio of the pair labels under the prior: `Σ dk² Var(f u - f v) / (2 σ²)`. -/
def pairSignal (sigma : ℝ) (y : List (IPair n)) (K : Matrix (Fin n) (Fin n) ℝ) : ℝ :=
  (y.map fun p => (p.dk : ℝ) ^ 2 * (K p.u p.u + K p.v p.v - 2 * K p.u p.v) / (2 * sigma ^ 2)).sum

/-- Minus the logarithm of likelihood times unnormalised prior density. -/
def modeCost (sigma : ℝ) (y : List (IPair n)) (K : Matrix (Fin n) (Fin n) ℝ) (F : Fin n → ℝ) : ℝ :=
  1 / 2 * (F ⬝ᵥ (K⁻¹ *ᵥ F)) - pairLogLik sigma y F

end

end Lop.Spec
