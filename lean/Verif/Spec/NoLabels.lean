import Verif.Model.Laplace
import Verif.Spec.PrefProbit

/-! # Specification vocabulary for training points without labels -/

namespace Lop.Spec

open Lop

/-- No labels of any kind (`add(X, [])` only). -/
def noLabels (n : Nat) : TrainLabels n := ⟨none, none, none⟩

/-- Rescaling of values to the interval from 0 to 1: smallest to 0, largest to 1. -/
noncomputable def toUnit {n : Nat} (F : Fin (n + 1) → ℝ) (i : Fin (n + 1)) : ℝ :=
  (F i - Finset.univ.inf' Finset.univ_nonempty F) /
    (Finset.univ.sup' Finset.univ_nonempty F - Finset.univ.inf' Finset.univ_nonempty F)

end Lop.Spec
