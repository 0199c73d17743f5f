import Verif.Spec.ModeLearned
import Verif.Spec.Again

/-! # Specification vocabulary: how far answers can move a model -/

namespace Lop.Spec

noncomputable section

variable {n : Nat}

/-- Upper limit of what comparisons can change: for every comparison its pull times the prior standard deviation of the
difference of its two points. -/
def influence (sigma : ℝ) (F : Fin n → ℝ) (K : Matrix (Fin n) (Fin n) ℝ) (l : List (IPair n)) : ℝ :=
  (l.map fun p => pairPull sigma F p * |(p.dk : ℝ)| * Real.sqrt (diffVar K p.v p.u)).sum

/-- By how many standard deviations of the answer noise the values contradict the comparison (0 if they agree). -/
def surprise (sigma : ℝ) (F : Fin n → ℝ) (p : IPair n) : ℝ := max 0 (-pairZ sigma F p)

end

end Lop.Spec
