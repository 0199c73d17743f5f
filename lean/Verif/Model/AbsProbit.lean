import Verif.Model.OrdProbit
import Verif.Spec.Gamma
import Mathlib.Probability.Distributions.Beta

/-! # Model of `src/lop/probits/AbsBoundProbit.py`

Real numbers instead of floats. `scipy.special.digamma`, `polygamma(1, ·)`, `polygamma(2, ·)` are the
derivatives of `log Γ`; `scipy.stats.beta.logpdf` is the logarithm of Mathlib's beta density. Labels are
lists of (rating, index) with the index in range; ratings lie strictly between 0 and 1 (`add` clamps them
to [0.001, 0.999], `clampRating`). -/

namespace Lop

open Spec ProbabilityTheory

variable {m : Nat}

/-- `mean_link` (`AbsBoundProbit.py:237-240`). -/
noncomputable def meanLink (sigma eps f : ℝ) : ℝ := npClip eps (1 - eps) (stdNormCdf (f * isqrt2sig sigma))

/-- `get_alpha_beta` (`AbsBoundProbit.py:246-255`). -/
noncomputable def alphaBeta (sigma v eps f : ℝ) : ℝ × ℝ :=
  let aa := v * meanLink sigma eps f
  (aa, v - aa)

/-- The common factor `log(y) - log(1-y) - digamma(aa) + digamma(bb)` (`AbsBoundProbit.py:275,278`). -/
noncomputable def absTmp (y aa bb : ℝ) : ℝ := Real.log y - Real.log (1 - y) - digamma aa + digamma bb

/-- One entry of `dpy_df` (`AbsBoundProbit.py:275`). -/
noncomputable def absDpy (sigma v eps y f : ℝ) : ℝ :=
  let ab := alphaBeta sigma v eps f
  v * isqrt2sig sigma * stdNormPdf (f * isqrt2sig sigma) * absTmp y ab.1 ab.2

/-- One entry of `Wdiag` (`AbsBoundProbit.py:277-279`). -/
noncomputable def absWdiag (sigma v eps y f : ℝ) : ℝ :=
  let ab := alphaBeta sigma v eps f;
  -v * isqrt2sig sigma * stdNormPdf (f * isqrt2sig sigma) *
    (f * i2var sigma * absTmp y ab.1 ab.2 +
      v * isqrt2sig sigma * stdNormPdf (f * isqrt2sig sigma) * (trigamma ab.1 + trigamma ab.2))

/-- One entry of `py` (`AbsBoundProbit.py:283,309`). -/
noncomputable def absPy (sigma v eps y f : ℝ) : ℝ :=
  let ab := alphaBeta sigma v eps f
  Real.log (betaPDFReal ab.1 ab.2 y)

/-- `full[y[1]] = w` followed by use as a diagonal (`AbsBoundProbit.py:286-287`): later assignments
overwrite earlier ones. -/
noncomputable def assignDiag (l : List (Fin m × ℝ)) : Fin m → Fin m → ℝ :=
  fun i j => if i = j then assignVec l i else 0

/-- `AbsBoundProbit.derivatives(y, F)` (`AbsBoundProbit.py:267-292`). -/
noncomputable def absDerivatives (sigma v eps : ℝ) (y : List (ℝ × Fin m)) (F : Fin m → ℝ) :
    (Fin m → Fin m → ℝ) × (Fin m → ℝ) × ℝ :=
  let W := assignDiag (y.map fun p => (p.2, absWdiag sigma v eps p.1 (F p.2)))
  (fun i j => -W i j, assignVec (y.map fun p => (p.2, absDpy sigma v eps p.1 (F p.2))),
    (y.map fun p => absPy sigma v eps p.1 (F p.2)).sum)

/-- `AbsBoundProbit.log_likelihood(y, F)` (`AbsBoundProbit.py:304-313`). -/
noncomputable def absLogLik (sigma v eps : ℝ) (y : List (ℝ × Fin m)) (F : Fin m → ℝ) : ℝ :=
  ∑ i, assignVec (y.map fun p => (p.2, absPy sigma v eps p.1 (F p.2))) i

/-- `AbsBoundProbit.likelihood(y, F)` (`AbsBoundProbit.py:301-302`). -/
noncomputable def absLikelihood (sigma v eps : ℝ) (y : List (ℝ × Fin m)) (F : Fin m → ℝ) : ℝ :=
  Real.exp (absLogLik sigma v eps y F)

/-- One entry of `Wdiag` in `calc_W_dF` (`AbsBoundProbit.py:341-354`). -/
noncomputable def absWdF1 (sigma v eps y f : ℝ) : ℝ :=
  let ab := alphaBeta sigma v eps f
  let sqrt2 := Real.sqrt 2
  let pdf := stdNormPdf (f / (sqrt2 * sigma))
  let t1a := -(v / (2 * sqrt2 * sigma * sigma * sigma)) * pdf * (1 - ((f * f) / (2 * sigma * sigma)))
  let t1b := absTmp y ab.1 ab.2
  let t2a := ((3 * v * v * f) / (4 * sigma * sigma * sigma * sigma)) * pdf * pdf
  let t2b := trigamma ab.1 + trigamma ab.2
  let t3a := (v * v * v) / (2 * sqrt2 * sigma * sigma * sigma)
  let t3b := pdf * pdf * pdf * (tetragamma ab.2 - tetragamma ab.1)
  t1a * t1b + t2a * t2b + t3a * t3b

/-- `calc_W_dF(y, F)` (`AbsBoundProbit.py:327-359`): non-zero only on the three-dimensional diagonal. -/
noncomputable def absWdF (sigma v eps : ℝ) (y : List (ℝ × Fin m)) (F : Fin m → ℝ) :
    Fin m → Fin m → Fin m → ℝ :=
  fun a i j => if a = i ∧ i = j then
    assignVec (y.map fun p => (p.2, absWdF1 sigma v eps p.1 (F p.2))) i else 0

/-- One entry of `dW_dv` (`AbsBoundProbit.py:400-414`). -/
noncomputable def absWdv1 (sigma v eps y f : ℝ) : ℝ :=
  let sqrt2 := Real.sqrt 2
  let mu := meanLink sigma eps f
  let ab := alphaBeta sigma v eps f
  let pdf := stdNormPdf (f / (sqrt2 * sigma))
  let pdf2 := pdf * pdf
  let sigma2 := sigma * sigma
  let sigma3 := sigma2 * sigma
  let tmp := absTmp y ab.1 ab.2
  let term1 := -(f / (2 * sqrt2 * sigma3)) * pdf * tmp
  let term2a := -(v * f / (2 * sqrt2 * sigma3)) * pdf
  let term2b := -mu * trigamma ab.1 + trigamma ab.2 - mu * trigamma ab.2
  let term3 := (v / sigma2) * pdf2 * (trigamma ab.1 + trigamma ab.2)
  let term4a := ((v * v) / (2 * sigma2)) * pdf2
  let term4b := mu * trigamma ab.1 + (1 - mu) * tetragamma ab.2
  term1 + term2a * term2b + term3 + term4a * term4b

/-- One entry of `dW_dSigma` (`AbsBoundProbit.py:416-428`). -/
noncomputable def absWdSigma1 (sigma v eps y f : ℝ) : ℝ :=
  let sqrt2 := Real.sqrt 2
  let ab := alphaBeta sigma v eps f
  let pdf := stdNormPdf (f / (sqrt2 * sigma))
  let pdf2 := pdf * pdf
  let pdf3 := pdf * pdf2
  let sigma2 := sigma * sigma
  let sigma3 := sigma2 * sigma
  let sigma4 := sigma3 * sigma
  let tmp := absTmp y ab.1 ab.2
  let term1a := (v * f / (4 * sqrt2 * sigma4)) * pdf
  let term1b := 6 - ((f * f) / sigma2)
  let term2a := ((v * v) / sigma3) * pdf2
  let term2b := 1 + ((-3 * f * f) / (4 * sigma2))
  let term2c := trigamma ab.1 + trigamma ab.2
  let term3a := ((v * v * v * f) / (2 * sqrt2 * sigma4)) * pdf3
  let term3b := tetragamma ab.1 - tetragamma ab.2
  term1a * term1b * tmp + term2a * term2b * term2c + term3a * term3b

/-- `calc_W_dHyper(y, F)` (`AbsBoundProbit.py:371-438`) for `optimize_parameters = True`: the list of
matrices `dW/dv`, or `dW/dsigma`, `dW/dv`. -/
noncomputable def absWdHyper (vOnly : Bool) (sigma v eps : ℝ) (y : List (ℝ × Fin m)) (F : Fin m → ℝ) :
    List (Fin m → Fin m → ℝ) :=
  let dv := assignDiag (y.map fun p => (p.2, absWdv1 sigma v eps p.1 (F p.2)))
  let ds := assignDiag (y.map fun p => (p.2, absWdSigma1 sigma v eps p.1 (F p.2)))
  if vOnly then [fun i j => -dv i j] else [fun i j => -ds i j, fun i j => -dv i j]

/-- One summand of `dpy_dv` (`AbsBoundProbit.py:463-467`). -/
noncomputable def absGradV1 (sigma v eps y f : ℝ) : ℝ :=
  let mu := meanLink sigma eps f
  let ab := alphaBeta sigma v eps f
  let term1 := mu * Real.log y + (1 - mu) * Real.log (1 - y)
  let term2 := -mu * digamma ab.1 - (1 - mu) * digamma ab.2 + digamma (ab.1 + ab.2)
  term1 + term2

/-- One summand of `dpy_dSigma` (`AbsBoundProbit.py:470-473`). -/
noncomputable def absGradSigma1 (sigma v eps y f : ℝ) : ℝ :=
  let ab := alphaBeta sigma v eps f
  let pdf := stdNormPdf (f / (Real.sqrt 2 * sigma))
  let mult := v * f * pdf / (Real.sqrt 2 * sigma * sigma)
  mult * (Real.log (1 - y) - Real.log y + digamma ab.1 - digamma ab.2)

/-- `grad_hyper(y, F)` (`AbsBoundProbit.py:447-480`) for `optimize_parameters = True`. -/
noncomputable def absGradHyper (vOnly : Bool) (sigma v eps : ℝ) (y : List (ℝ × Fin m)) (F : Fin m → ℝ) :
    List ℝ :=
  let dv := (y.map fun p => absGradV1 sigma v eps p.1 (F p.2)).sum
  let ds := (y.map fun p => absGradSigma1 sigma v eps p.1 (F p.2)).sum
  if vOnly then [dv] else [ds, dv]

end Lop
