import Verif.Spec.FindMode
import Verif.Spec.OrdProbit

/-! # Specification vocabulary for fits with comparisons and ordinal ratings -/

namespace Lop.Spec

open Matrix

noncomputable section

variable {n : Nat}

/-- Log-likelihood of comparisons (noise `sigma`) and ordinal ratings (thresholds `t`, noise `so`). -/
def pairOrdLogLik (sigma : ℝ) (t : List ℝ) (so : ℝ) (pairs : List (IPair n)) (y : List (Nat × Fin n))
    (F : Fin n → ℝ) : ℝ :=
  pairLogLik sigma pairs F + ordLogLik t so y F

/-- Maximiser of the log posterior density of comparisons and ordinal ratings under the prior covariance `K`. -/
def IsOrdMode (sigma : ℝ) (t : List ℝ) (so : ℝ) (pairs : List (IPair n)) (y : List (Nat × Fin n))
    (K : Matrix (Fin n) (Fin n) ℝ) (m : Fin n → ℝ) : Prop :=
  ∀ G, logPosterior K (pairOrdLogLik sigma t so pairs y) G ≤ logPosterior K (pairOrdLogLik sigma t so pairs y) m

/-- The ratings are among `1, …, t.length + 1`. -/
def RatingsValid (t : List ℝ) (y : List (Nat × Fin n)) : Prop := ∀ p ∈ y, 1 ≤ p.1 ∧ p.1 ≤ t.length + 1

/-- Labels that consist of pairs and ordinal ratings. -/
def pairsAndRatings (pairs : List (IPair n)) (y : List (Nat × Fin n)) : TrainLabels n :=
  ⟨some pairs, some (y.map fun p => ((p.1 : Int), p.2)), none⟩

/-- Bound on column `j` of the matrix of a Newton step when all ratings have probability at least `c`. -/
def ordColumn (sigma so c : ℝ) (pairs : List (IPair n)) (K : Matrix (Fin n) (Fin n) ℝ) (j : Fin n) : ℝ :=
  (∑ i, |K⁻¹ j i|) + 2 * pairCurvature sigma pairs + (1 / c ^ 2 + 1 / c) / so ^ 2

/-- Factor between the tolerance of `find_mode` and the error of the value at point `i`. -/
def ordErrorFactor (sigma so c : ℝ) (pairs : List (IPair n)) (K : Matrix (Fin n) (Fin n) ℝ) (i : Fin n) : ℝ :=
  1 + 32 / 3 * Real.sqrt (K i i *
    ∑ j, ∑ l, |K j l| * (ordColumn sigma so c pairs K j * ordColumn sigma so c pairs K l))

end

end Lop.Spec
