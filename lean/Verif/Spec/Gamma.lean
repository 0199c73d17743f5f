import Mathlib.Analysis.SpecialFunctions.Gamma.Deriv
import Mathlib.Analysis.SpecialFunctions.Log.Deriv

/-! # The polygamma functions as derivatives of `log Γ` -/

namespace Lop.Spec

/-- `log Γ(x)`. -/
noncomputable def logGamma (x : ℝ) : ℝ := Real.log (Real.Gamma x)

/-- Digamma: first derivative of `log Γ`. -/
noncomputable def digamma : ℝ → ℝ := deriv logGamma

/-- Trigamma: second derivative of `log Γ`. -/
noncomputable def trigamma : ℝ → ℝ := deriv digamma

/-- Tetragamma: third derivative of `log Γ`. -/
noncomputable def tetragamma : ℝ → ℝ := deriv trigamma

end Lop.Spec
