import Mathlib.Probability.Distributions.Gaussian.Real
import Mathlib.MeasureTheory.Measure.Prod

/-! # Specification vocabulary for the synthetic users -/

namespace Lop.Spec

open MeasureTheory ProbabilityTheory

/-- Probability that a normal variable with mean `y1` exceeds an independent one with mean `y2`, both with
variance `v`. -/
noncomputable def probAbove (y1 y2 : ℝ) (v : NNReal) : ℝ :=
  ((gaussianReal y1 v).prod (gaussianReal y2 v)).real {q | q.2 < q.1}

/-- Average of a list of numbers. -/
noncomputable def average (l : List ℝ) : ℝ := l.sum / l.length

end Lop.Spec
