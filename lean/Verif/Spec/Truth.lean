import Verif.Spec.PrefProbit
import Verif.Spec.OrdProbit

/-! # Specification: answers drawn from the probit itself -/

namespace Lop.Spec

variable {n m k r : Nat}

/-- The labels when the questions `qs` get the answers `a` (`true`: the second item was preferred). -/
def answerLabels (qs : Fin k → Fin n × Fin n) (a : Fin k → Bool) : List (IPair n) :=
  List.ofFn fun i => ⟨if a i then 1 else -1, (qs i).1, (qs i).2⟩

/-- The value differences of all questions are at most 30 standard deviations. -/
def QuestionsInRange (sigma : ℝ) (qs : Fin k → Fin n × Fin n) (F : Fin n → ℝ) : Prop :=
  ∀ i, |(F (qs i).2 - F (qs i).1) / (Real.sqrt 2 * sigma)| ≤ 30

/-- The labels when the items `idx` get the ratings `a` (numbered from 0 here, from 1 in the labels). -/
def ratedLabels (idx : Fin k → Fin m) (a : Fin k → Fin r) : List (Int × Fin m) :=
  List.ofFn fun i => (((a i : Nat) + 1 : Nat), idx i)

/-- Every threshold is within the limits of the cdf as seen from every rated item. -/
def RatedInRange (t : List ℝ) (sigma : ℝ) (idx : Fin k → Fin m) (F : Fin m → ℝ) : Prop :=
  ∀ i, ∀ x ∈ t, -30 ≤ (x - F (idx i)) / sigma ∧ (x - F (idx i)) / sigma ≤ 100

end Lop.Spec
