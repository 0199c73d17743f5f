import Verif.Model.GP
import Mathlib.MeasureTheory.Integral.Bochner.Basic
import Mathlib.MeasureTheory.Function.L2Space

/-! # Specification vocabulary: random measurement errors -/

namespace Lop.Spec

open MeasureTheory

variable {Ω : Type*} [MeasurableSpace Ω]

/-- Random errors of the measurements `0, 1, 2, …`: each has mean zero and a second moment of at most `s t`, and different ones are uncorrelated. They
need be neither Gaussian, nor bounded, nor independent, nor equally distributed. -/
structure IsError (μ : Measure Ω) (s : Nat → ℝ) (err : Nat → Ω → ℝ) : Prop where
  square : ∀ t, MemLp (err t) 2 μ
  mean : ∀ t, ∫ ω, err t ω ∂μ = 0
  size : ∀ t, ∫ ω, err t ω ^ 2 ∂μ ≤ s t
  apart : ∀ t u, t ≠ u → ∫ ω, err t ω * err u ω ∂μ = 0

/-- The measurements of `f` at the points `z 0, z 1, …` with the errors `err`; the learner is told the noise `s t` with each. -/
def noisyMeas {d : Nat} (f : Pt d → ℝ) (z : Nat → Pt d) (s : Nat → ℝ) (err : Nat → Ω → ℝ) (ω : Ω) (t : Nat) : Pt d × ℝ × ℝ :=
  (z t, f (z t) + err t ω, s t)

end Lop.Spec
