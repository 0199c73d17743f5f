import Mathlib.Probability.Distributions.Gaussian.Real

/-! # The standard normal distribution function -/

namespace Lop.Spec

open MeasureTheory ProbabilityTheory

/-- `Φ(x)`: the probability that a standard normal variable is at most `x`. -/
noncomputable def Phi (x : ℝ) : ℝ := (gaussianReal 0 1).real (Set.Iic x)

/-- The standard normal density. -/
noncomputable def phi (x : ℝ) : ℝ := Real.exp (-(x ^ 2) / 2) / Real.sqrt (2 * Real.pi)

end Lop.Spec
