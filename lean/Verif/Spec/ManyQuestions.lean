import Verif.Spec.Frequency
import Verif.Spec.Truth

/-! # Specification vocabulary: answers to many questions -/

namespace Lop.Spec

variable {n k : Nat}

/-- The answer puts `v` above `u`. -/
def PutsAbove (u v : Fin n) (p : IPair n) : Prop := p.dk = 1 ∧ p.u = u ∧ p.v = v ∨ p.dk = -1 ∧ p.u = v ∧ p.v = u

instance (u v : Fin n) (p : IPair n) : Decidable (PutsAbove u v p) := by unfold PutsAbove; infer_instance

instance (u v : Fin n) (p : IPair n) : Decidable (AboutPair u v p) := by unfold AboutPair; infer_instance

/-- How many of the answers put `v` above `u`. -/
def timesAbove (y : List (IPair n)) (u v : Fin n) : Nat := y.countP fun p => PutsAbove u v p

/-- How many of the answers are about `u` and `v`. -/
def timesAsked (y : List (IPair n)) (u v : Fin n) : Nat := y.countP fun p => AboutPair u v p

/-- Probability that someone with the values `F` puts `v` above `u`. -/
noncomputable def chanceAbove (sigma : ℝ) (F : Fin n → ℝ) (u v : Fin n) : ℝ := Phi ((F v - F u) / (Real.sqrt 2 * sigma))

/-- Every pair of different points once. -/
def pointPairs (n : Nat) : Finset (Fin n × Fin n) := Finset.univ.filter fun e => e.1 < e.2

/-- Pearson's χ² statistic: how far the answers are from those that the values `F` make one expect. -/
noncomputable def chiSquare (sigma : ℝ) (y : List (IPair n)) (F : Fin n → ℝ) : ℝ :=
  ∑ e ∈ pointPairs n, (timesAbove y e.1 e.2 - timesAsked y e.1 e.2 * chanceAbove sigma F e.1 e.2) ^ 2 /
    (timesAsked y e.1 e.2 * (chanceAbove sigma F e.1 e.2 * (1 - chanceAbove sigma F e.1 e.2)))

/-- How many different questions there are in `qs`, no matter which way round they are asked. -/
def differentQuestions (qs : Fin k → Fin n × Fin n) : Nat := (Finset.univ.image fun i => s((qs i).1, (qs i).2)).card

end Lop.Spec
