import Verif.Model.Study
import Verif.Spec.Data

/-! # Specification: the accuracy of a model after some choices of a participant -/

namespace Lop.Spec

variable {d : Nat} {α : Type*} [LinearOrder α] {R : Type*} [Field R] [LinearOrder R]

/-- `i` is the first largest entry of `l`. -/
def FirstLargest (l : List ℝ) (i : Nat) : Prop :=
  ∃ m, l[i]? = some m ∧ (∀ a ∈ l, a ≤ m) ∧ ∀ (j : Nat) a, j < i → l[j]? = some a → a < m

/-- The data of a fresh model that was given the choices `train`, and nothing else: in each, the preferred path against
all others shown. -/
def choicesData (pareto : Bool) (train : List (StudySample d α)) : ModelState d α R :=
  run pareto {} (train.map fun t => Op.add t.rewards
    (.pairs ((((List.range t.rewards.length).filter (· ≠ t.best)).map fun i => ⟨-1, t.best, i⟩))))

open Classical in
/-- The fraction of the choices `ev` that a model trained on the choices `train` alone predicts. -/
noncomputable def studyAccuracy (value : StudyValue d α R) (pareto : Bool) (train ev : List (StudySample d α)) : ℝ :=
  let D : ModelState d α R := choicesData pareto train
  (ev.countP fun s => FirstLargest (value (D.X.map fun X => (X, D.y)) s.rewards) s.best) / ev.length

end Lop.Spec
