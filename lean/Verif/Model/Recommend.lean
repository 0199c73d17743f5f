import Verif.Model.UcbLoop

/-! # Model of asking a `GP` for its best candidates -/

namespace Lop

variable {d : Nat}

noncomputable section

/-- `Model.select_best` (`Model.py:74-76`) of a `GP` with the default mean function: `np.argmax` of the predicted means. -/
def gpSelectBest (cov : CovFn d) (cands : List (Pt d)) (st : GPState d) : Except PyErr Nat :=
  match gpRegress cov (fun _ => 0) st cands.get with
  | .error e => .error e
  | .ok p => npArgmax (List.ofFn p.mu)

/-- `Model.select` (`Model.py:131-132`) of a `GP` with a `BestLearner` and the default arguments: `select` predicts the candidates
(`ActiveLearner.py:84`) and takes `q` of them (`BestLearner.py:43-50`). The orders in which Python lists sets are parameters. -/
def gpSelectTop (cov : CovFn d) (q : Nat) (t : UcbTurn d) (st : GPState d) : Except PyErr (List Nat) :=
  match gpRegress cov (fun _ => 0) st t.cands.get with
  | .error e => .error e
  | .ok p => learnerSelect (bestLearner t.ordL (List.ofFn p.mu)) false true none t.ord (List.ofFn p.mu) q ∅ ∅

end

end Lop
