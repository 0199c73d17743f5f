import Verif.Model.AbsProbit

/-! # Model of `AbsBoundProbit.cdf` (`src/lop/probits/AbsBoundProbit.py`)

`scipy.stats.beta.cdf` is the distribution function of Mathlib's beta measure. The code works elementwise on arrays of
ratings and values of one shape; the model is one entry. -/

namespace Lop

open ProbabilityTheory

/-- One entry of `cdf(y, F)` (`AbsBoundProbit.py:484-486`). -/
noncomputable def absCdf (sigma v eps y f : ℝ) : ℝ :=
  let ab := alphaBeta sigma v eps f
  (betaMeasure ab.1 ab.2).real (Set.Iic y)

end Lop
