import Verif.Model.LazyFit

/-! # Specification vocabulary for lazy fitting -/

namespace Lop.Spec

open Lop

variable {X P O R H : Type}

/-- The fit belongs to the present training data and hyper-parameters. -/
def FitCurrent (m : LazyGP X P O R H) (fit : Option (X × FitLabels P O R × H)) : Prop :=
  match m.x with
  | none => fit = none
  | some x => fit = some (x, m.y, m.hyper)

/-- The call does not change hyper-parameters from outside. -/
def KeepsHyper : LazyOp X P O R H → Prop
  | .setHyper _ => False
  | _ => True

end Lop.Spec
