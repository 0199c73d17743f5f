import Verif.Model.Pairs
import Verif.Spec.Normal
import Mathlib.Data.Matrix.Basic
import Mathlib.LinearAlgebra.Matrix.Notation

/-! # Model of `src/lop/probits/ProbitBase.py` and `src/lop/probits/PreferenceProbit.py`

Real numbers instead of floats. `scipy.special.ndtr` and `log_ndtr` are modelled by the standard normal
distribution function `Φ` and its logarithm. Label arrays are lists of pairs whose indices are in range
(`F[y[:,2]]` raises otherwise); an empty label array is never passed (the label field is `None` then). -/

namespace Lop

open Spec

/-- `np.clip(x, lo, hi)`. -/
def npClip {K : Type*} [LinearOrder K] (lo hi x : K) : K := min (max x lo) hi

/-- `std_norm_pdf` (`ProbitBase.py:33-37`). -/
noncomputable def stdNormPdf (x : ℝ) : ℝ := Real.exp (-(x ^ 2) / 2) / Real.sqrt (2 * Real.pi)

/-- `std_norm_cdf` (`ProbitBase.py:40-43`). -/
noncomputable def stdNormCdf (x : ℝ) : ℝ := Phi (npClip (-30) 100 x)

/-- First result of `calc_pdf_cdf_ratio` (`ProbitBase.py:54-59`). The branch `cdf_z == 0` (value `inf`
or 0) is not reachable, neither in exact arithmetic nor in floats, because the argument of the cdf is at
least -30 (`C36_probability` proves it is positive), so `np.isinf` is never true either. -/
noncomputable def pdfCdfRatio (z : ℝ) : ℝ := stdNormPdf z / stdNormCdf z

/-- Second result of `calc_pdf_cdf_ratio` (`ProbitBase.py:61`). -/
noncomputable def pdfCdfRatio2 (z : ℝ) : ℝ := pdfCdfRatio z * pdfCdfRatio z

/-- One row `(dk, u, v)` of the label array of pairs among `n` points. -/
structure IPair (n : Nat) where
  dk : Int
  u : Fin n
  v : Fin n
  deriving DecidableEq

variable {n : Nat}

/-- `self._isqrt2sig` (`PreferenceProbit.py:90`). -/
noncomputable def isqrt2sig (sigma : ℝ) : ℝ := 1 / (sigma * Real.sqrt 2)

/-- `self._i2var` (`PreferenceProbit.py:91`). -/
noncomputable def i2var (sigma : ℝ) : ℝ := isqrt2sig sigma ^ 2

/-- One entry of `z_k(y, F)` (`PreferenceProbit.py:106-107`). -/
noncomputable def zk (sigma : ℝ) (F : Fin n → ℝ) (p : IPair n) : ℝ :=
  isqrt2sig sigma * p.dk * (F p.v - F p.u)

/-- `add_up_vec` (`PreferenceProbit.py:359-363,405-409`). -/
def addUpVec (l : List (Fin n × ℝ)) (M : Fin n → ℝ) : Fin n → ℝ :=
  l.foldl (fun M e => Function.update M e.1 (M e.1 + e.2)) M

/-- `add_up_mat` (`PreferenceProbit.py:347-351,394-398`). -/
def addUpMat (l : List ((Fin n × Fin n) × ℝ)) (M : Fin n → Fin n → ℝ) : Fin n → Fin n → ℝ :=
  l.foldl (fun M e a b => if (a, b) = e.1 then M a b + e.2 else M a b) M

/-- Accumulating into a three-dimensional array. -/
def addUpTensor (l : List ((Fin n × Fin n × Fin n) × ℝ)) (M : Fin n → Fin n → Fin n → ℝ) :
    Fin n → Fin n → Fin n → ℝ :=
  l.foldl (fun M e a b c => if (a, b, c) = e.1 then M a b c + e.2 else M a b c) M

/-- `add_up_W_partial` (`PreferenceProbit.py:371-385,416-430`). -/
def addUpWPartial (l : List (IPair n × ℝ)) (M : Fin n → Fin n → Fin n → ℝ) :
    Fin n → Fin n → Fin n → ℝ :=
  addUpTensor (l.flatMap fun (y, v) =>
    [((y.u, y.u, y.u), v), ((y.v, y.u, y.u), -v),
     ((y.u, y.u, y.v), -v), ((y.v, y.u, y.v), v),
     ((y.u, y.v, y.u), -v), ((y.v, y.v, y.u), v),
     ((y.u, y.v, y.v), v), ((y.v, y.v, y.v), -v)]) M

/-- `likelihood(y, F)` (`PreferenceProbit.py:316-318`). -/
noncomputable def prefLikelihood (sigma : ℝ) (y : List (IPair n)) (F : Fin n → ℝ) : List ℝ :=
  y.map fun p => stdNormCdf (zk sigma F p)

/-- `likelihood_all_pairs(F)` (`PreferenceProbit.py:302-307`). -/
noncomputable def prefAllPairs (sigma : ℝ) (F : Fin n → ℝ) (i j : Fin n) : ℝ :=
  stdNormCdf ((F i - F j) * isqrt2sig sigma)

/-- `log_likelihood(y, F)` (`PreferenceProbit.py:326-329`). -/
noncomputable def prefLogLik (sigma : ℝ) (y : List (IPair n)) (F : Fin n → ℝ) : ℝ :=
  (y.map fun p => Real.log (Phi (npClip (-30) 100 (zk sigma F p)))).sum

/-- `derv_log_likelyhood(y, F)` (`PreferenceProbit.py:119-132`). -/
noncomputable def prefDerv (sigma : ℝ) (y : List (IPair n)) (F : Fin n → ℝ) : Fin n → ℝ :=
  let dp : IPair n → ℝ := fun p => p.dk * pdfCdfRatio (zk sigma F p) * isqrt2sig sigma
  addUpVec (y.map fun p => (p.v, dp p)) (addUpVec (y.map fun p => (p.u, -dp p)) fun _ => 0)

/-- The four `add_up_mat` calls at the end of `calc_W` and `calc_W_dHyper`
(`PreferenceProbit.py:191-202,261-272`) for the per-pair values `w`. -/
noncomputable def addUpPairs (y : List (IPair n)) (w : IPair n → ℝ) : Matrix (Fin n) (Fin n) ℝ :=
  Matrix.of
    (addUpMat (y.map fun p => ((p.v, p.v), -w p))
      (addUpMat (y.map fun p => ((p.v, p.u), w p))
        (addUpMat (y.map fun p => ((p.u, p.v), w p))
          (addUpMat (y.map fun p => ((p.u, p.u), -w p)) fun _ _ => 0))))

/-- `calc_W(y, F)` (`PreferenceProbit.py:183-204`). -/
noncomputable def prefW (sigma : ℝ) (y : List (IPair n)) (F : Fin n → ℝ) : Matrix (Fin n) (Fin n) ℝ :=
  addUpPairs y fun p =>
    let z := zk sigma F p;
    -((p.dk : ℝ) * p.dk) * (z * pdfCdfRatio z + pdfCdfRatio2 z) * i2var sigma

/-- `derivatives(y, F)` (`PreferenceProbit.py:290-295`). -/
noncomputable def prefDerivatives (sigma : ℝ) (y : List (IPair n)) (F : Fin n → ℝ) :
    Matrix (Fin n) (Fin n) ℝ × (Fin n → ℝ) × ℝ :=
  (prefW sigma y F, prefDerv sigma y F, prefLogLik sigma y F)

/-- `grad_hyper(y, F)` with `optimize_parameters` (`PreferenceProbit.py:140-148`). -/
noncomputable def prefGradHyper (sigma : ℝ) (y : List (IPair n)) (F : Fin n → ℝ) : ℝ :=
  -(y.map fun p => zk sigma F p * pdfCdfRatio (zk sigma F p)).sum / sigma

/-- `calc_W_dF(y, F)` (`PreferenceProbit.py:216-230`); the first index is the differentiation index. -/
noncomputable def prefWdF (sigma : ℝ) (y : List (IPair n)) (F : Fin n → ℝ) :
    Fin n → Fin n → Fin n → ℝ :=
  addUpWPartial (y.map fun p =>
    let z := zk sigma F p
    (p, (pdfCdfRatio z - z * z * pdfCdfRatio z - 3 * z * pdfCdfRatio2 z
          - 2 * pdfCdfRatio2 z * stdNormPdf z) * ((p.dk : ℝ) * p.dk * p.dk)
        * (-1 / (2 * Real.sqrt 2 * sigma * sigma * sigma)))) fun _ _ _ => 0

/-- `calc_W_dHyper(y, F)[0]` with `optimize_parameters` (`PreferenceProbit.py:242-277`); the `np.where`
on a vanishing cdf is unreachable, and so is the debugger stop on NaN. -/
noncomputable def prefWdHyper (sigma : ℝ) (y : List (IPair n)) (F : Fin n → ℝ) :
    Matrix (Fin n) (Fin n) ℝ :=
  addUpPairs y fun p =>
    let z := zk sigma F p
    let pdf := stdNormPdf z
    let cdf := stdNormCdf z
    let term1 := ((p.dk : ℝ) * p.dk / (sigma * sigma * sigma)) * (z * pdfCdfRatio z + pdfCdfRatio2 z)
    let term2a := (1 / (2 * sigma * sigma * sigma)) * p.dk * p.dk * z * pdf / (cdf * cdf * cdf)
    let term2b := -(cdf * cdf) + z * z * cdf * cdf + 3 * z * pdf * cdf + 2 * pdf * pdf
    term1 - term2a * term2b

end Lop
