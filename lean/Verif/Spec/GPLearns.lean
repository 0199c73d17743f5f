import Verif.Spec.UcbRegret

/-! # Specification vocabulary for learning a function with `GP` -/

namespace Lop.Spec

open Lop

variable {d : Nat}

/-- The kernel gives the difference of the values at `x` and `z` a standard deviation of at most `rho`. -/
def KernelClose (k : KExpr ℝ (Pt d)) (rho : ℝ) (x z : Pt d) : Prop :=
  ∀ c : Matrix (Fin 2) (Fin 2) ℝ, k.cov ![x, z] ![x, z] = .ok c → c 0 0 + c 1 1 - c 0 1 - c 1 0 ≤ rho ^ 2

open Classical in
/-- The number of measurements (rows `(point, value, noise)`) taken close to `x`. -/
noncomputable def closeRows (k : KExpr ℝ (Pt d)) (rho : ℝ) (x : Pt d) (rows : List (Pt d × ℝ × ℝ)) : Nat :=
  (rows.filter fun r => KernelClose k rho x r.1).length

/-- The squared measurement errors, in units of the assumed noise. -/
noncomputable def misfit (f : Pt d → ℝ) (rows : List (Pt d × ℝ × ℝ)) : ℝ :=
  (rows.map fun r => (r.2.1 - f r.1) ^ 2 / r.2.2).sum

/-- Infinitely many of the measured points are in every neighbourhood of `x`. -/
def MeasuredNear (meas : Nat → Pt d × ℝ × ℝ) (x : Pt d) : Prop :=
  ∀ delta > 0, ∀ T : Nat, ∃ t ≥ T, ∀ c, |(meas t).1 c - x c| < delta

end Lop.Spec
