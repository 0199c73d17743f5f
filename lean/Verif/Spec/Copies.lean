import Verif.Spec.Again
import Mathlib.Data.Fin.Tuple.Basic

/-! # Specification vocabulary: an item that is stored several times

`items i` is the item of the stored point `i`; several points can be copies of one item. -/

namespace Lop.Spec

noncomputable section

variable {n t d : Nat}

/-- How strongly all comparisons together pull the item `j` up, whichever copies of it they mention. -/
def itemPull (sigma : ℝ) (y : List (IPair n)) (F : Fin n → ℝ) (items : Fin n → Fin t) (j : Fin t) : ℝ :=
  (y.map fun p => pairPull sigma F p * p.dk *
    ((if items p.v = j then 1 else 0) - (if items p.u = j then 1 else 0))).sum

/-- `c` copies of `A` and `c` copies of `B`. -/
def freshCopies (c : Nat) (A B : Fin d → ℝ) : Fin (c + c) → Fin d → ℝ := Fin.append (fun _ => A) (fun _ => B)

/-- The `j`-th copy of the first point is better than the `j`-th copy of the second one. -/
def freshAnswers (c : Nat) : List (IPair (c + c)) := List.ofFn fun j : Fin c => ⟨1, Fin.natAdd c j, Fin.castAdd c j⟩

end

end Lop.Spec
