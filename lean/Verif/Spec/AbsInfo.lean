import Mathlib.Probability.Distributions.Beta
import Mathlib.Analysis.SpecialFunctions.Log.Basic
import Mathlib.MeasureTheory.Integral.Bochner.Set

/-! # Specification: what a rating says about the best candidate -/

namespace Lop.Spec

open ProbabilityTheory MeasureTheory

noncomputable section

variable {N : Nat}

/-- The probability that a beta-distributed rating exceeds `m`. -/
def ratingAbove (a b m : ℝ) : ℝ := (betaMeasure a b).real (Set.Ioi m)

/-- Density, with respect to the rating distribution, of a rating known to exceed `m`. -/
def aboveDensity (a b m q : ℝ) : ℝ := (Set.Ioi m).indicator (fun _ => 1 / ratingAbove a b m) q

/-- Mutual information between the best candidate, distributed as `p`, and a rating whose distribution given that `B` is
the best is the beta distribution above `m B`. -/
def ratingInformation (a b : ℝ) (p m : Fin N → ℝ) : ℝ :=
  ∑ B, p B * ∫ q, aboveDensity a b (m B) q *
    Real.log (aboveDensity a b (m B) q / ∑ B', p B' * aboveDensity a b (m B') q) ∂(betaMeasure a b)

end

end Lop.Spec
