import Verif.Spec.GPNoisy
import Verif.Spec.UcbRegret

/-! # Specification vocabulary: measurements of a random function -/

namespace Lop.Spec

open MeasureTheory

variable {Ω : Type*} [MeasurableSpace Ω] {d : Nat}

/-- A random function whose mean is `mean` and whose covariances are given by the kernel. -/
structure IsRandomFunction (μ : Measure Ω) (k : KExpr ℝ (Pt d)) (mean : Pt d → ℝ) (F : Pt d → Ω → ℝ) : Prop where
  square : ∀ x, MemLp (F x) 2 μ
  centre : ∀ x, ∫ ω, F x ω ∂μ = mean x
  cov : ∀ {n : Nat} (X : Fin n → Pt d) c, k.cov X X = .ok c → ∀ i j,
    ∫ ω, (F (X i) ω - mean (X i)) * (F (X j) ω - mean (X j)) ∂μ = c i j

/-- Measurement errors of mean zero and variances `s`, uncorrelated with each other and with the function. -/
structure IsMeasurementError (μ : Measure Ω) (mean : Pt d → ℝ) (F : Pt d → Ω → ℝ) (s : Nat → ℝ) (err : Nat → Ω → ℝ) : Prop where
  square : ∀ t, MemLp (err t) 2 μ
  centre : ∀ t, ∫ ω, err t ω ∂μ = 0
  size : ∀ t, ∫ ω, err t ω * err t ω ∂μ = s t
  apart : ∀ t u, t ≠ u → ∫ ω, err t ω * err u ω ∂μ = 0
  free : ∀ x t, ∫ ω, (F x ω - mean x) * err t ω ∂μ = 0

end Lop.Spec
