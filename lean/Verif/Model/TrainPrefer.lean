import Verif.Model.TrainLoop
import Verif.Model.Select

/-! # Model of the preferred candidates in the training loop (`experiments/experiment_helper.py:707-731`) -/

namespace Lop

noncomputable section

variable {α : Type*} [LinearOrder α] {d : Nat}

/-- With `config['pareto_pairs']` the query is selected by
`model.select(rewards, num_alts, prefer_pts=len(indicies['pareto']), return_not_selected=True)` from the reduced candidates
(`experiment_helper.py:707-731`): the reduced candidates and the preferred positions among them. `pareto` is `indicies['pareto']`, the
positions of the Pareto-optimal candidates before the reduction. -/
def trainPrefer (E : DownEnv (Fin d → α)) (useKmedoid : String) (limit : Nat) (defaultPareto : Bool) (pareto : List Nat)
    (rows : List (Fin d → α)) : Except PyErr (List (Fin d → α) × Finset Nat) :=
  match downselect E useKmedoid limit rows with
  | .error e => .error e
  | .ok out => match getPreferred defaultPareto out (.count pareto.length) with
    | .error e => .error e
    | .ok s => .ok (out, s)

end

end Lop
