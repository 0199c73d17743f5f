import Mathlib.Data.Real.Basic

/-! # Specification for quantised ratings -/

namespace Lop.Spec

/-- Where a utility lies between two bounds: 0 at the lower, 1 at the upper one. -/
noncomputable def relPosition (lo hi y : ℝ) : ℝ := (y - lo) / (hi - lo)

/-- The five values a rating in steps of a fifth can have. -/
def fiveSteps : List ℝ := [0.1, 0.3, 0.5, 0.7, 0.9]

end Lop.Spec
