import Mathlib.Algebra.BigOperators.Fin
import Mathlib.Data.Real.Sqrt

/-! # Specification vocabulary: upper confidence bounds from sampled weights -/

namespace Lop.Spec

/-- Average of finitely many numbers. -/
noncomputable def sampleAvg {n : Nat} (a : Fin n → ℝ) : ℝ := (∑ s, a s) / n

/-- Standard deviation: root of the average square minus the squared average. -/
noncomputable def stdDev {n : Nat} (a : Fin n → ℝ) : ℝ :=
  Real.sqrt (sampleAvg (fun s => a s ^ 2) - sampleAvg a ^ 2)

/-- Utility of the point `x` under the weights `w`. -/
def linUtil {d : Nat} (w x : Fin d → ℝ) : ℝ := ∑ k, w k * x k

/-- Optimistic utility of `x`: under the fitted weights, plus `alpha` standard deviations of the utility
under the sampled weights. -/
noncomputable def optimistic {n d : Nat} (alpha : ℝ) (w : Fin d → ℝ) (ws : Fin n → Fin d → ℝ)
    (x : Fin d → ℝ) : ℝ :=
  linUtil w x + alpha * stdDev fun s => linUtil (ws s) x

end Lop.Spec
