import Verif.Model.RepQ
import Verif.Model.LazyFit

/-! # Model of how representative queries index the samples
(`src/lop/active_learning/AcquisitionSelection.py:105-152,174-199`, `AbsAcquisition.py:115-141`)

`alignment(all_rep, Q_rep)` is called with the samples of `get_samples_from_model` and the queries of the
`get_representative_Q` just made. When samples were set on the learner (`set_samples`), they are those of another
call, for other representative points. Only the shapes and the indices are modelled here; the values of `alignment`
are in `Model/Alignment.lean`. -/

namespace Lop

/-- Whether `alignment(all_rep, Q_rep)` (`AcquisitionBase.py:129-198`) can index `all_rep`, which has `width`
columns: with fewer than two columns it returns at once; only the branch `loglikelihood` uses the queries, and
`all_rep[:,Q_rep]` (line 150) raises `IndexError` if any of them names a column that does not exist. -/
def alignIndex (kind : AlignKind) (width : Nat) (Q : List (List Nat)) : Except PyErr Unit :=
  if width < 2 then .ok ()
  else if kind = .loglikelihood ∧ (Q.any fun q => q.any fun i => width ≤ i) then .error .indexError
  else .ok ()

/-- The part of `select_pair` / `select_greedy` before the alignment is known (`AcquisitionSelection.py:174-199`,
`105-152`, `AbsAcquisition.py:115-133`): the representative points and queries, then the samples. `stored` is the
number of representative points of the samples that were set, if any; fresh samples have one column for each
representative point of this call. `.ok (some false)`: there is no training data, the choice is random. `.ok none`: the
drawing of queries is still running. -/
def acqAlign {P : Type*} (kind : AlignKind) (stored : Option Nat) (numAlts : Option Nat) (method : RepMethod P)
    (xTrain cand : Option (List P)) (choice : Nat → Nat → List Nat) (rng : Nat → Nat → List Nat) (fuel : Nat) :
    Except PyErr (Option Bool) :=
  match repQ numAlts method xTrain cand choice rng fuel with
  | .error e => .error e
  | .ok none => .ok none
  | .ok (some none) => .ok (some false)
  | .ok (some (some (pts, Q))) => (alignIndex kind (stored.getD pts.length) Q).map fun _ => some true

end Lop
