import Verif.Spec.Cov
import Mathlib.LinearAlgebra.Matrix.PosDef

/-! # Specification vocabulary for GP regression -/

namespace Lop.Spec

open Lop

/-- A zeroed kernel has no observation noise of its own. -/
def QuietIfZeroed {P : Type*} : KLeaf ℝ P → Prop
  | .zeroed _ _ _ noise => noise = 0
  | _ => True

/-- Loewner order: `B - A` is positive semidefinite. -/
def LoewnerLE {n : Nat} (A B : Matrix (Fin n) (Fin n) ℝ) : Prop := (B - A).PosSemidef

/-- The covariance routine of a kernel object. -/
noncomputable def kcov {d : Nat} (k : KExpr ℝ (Pt d)) : CovFn d := fun _ _ X Y => k.cov X Y

end Lop.Spec
