import Verif.Model.FindMode

/-! # Specification vocabulary: the same training data with the points numbered differently, or the answers written down
differently -/

namespace Lop.Spec

variable {n : Nat}

/-- The same pair when point `i` has become point `σ i`. -/
def pairTo (σ : Equiv.Perm (Fin n)) (p : IPair n) : IPair n := ⟨p.dk, σ p.u, σ p.v⟩

/-- The same labels when point `i` has become point `σ i`. -/
def labelsTo (σ : Equiv.Perm (Fin n)) (y : TrainLabels n) : TrainLabels n where
  pairs := y.pairs.map fun l => l.map (pairTo σ)
  ord := y.ord.map fun l => l.map fun p => (p.1, σ p.2)
  abs := y.abs.map fun l => l.map fun p => (p.1, σ p.2)

/-- A vector of values at the points when point `i` has become point `σ i`. -/
def valuesTo {α : Type*} (σ : Equiv.Perm (Fin n)) (F : Fin n → α) : Fin n → α := fun i => F (σ.symm i)

/-- A matrix between the points when point `i` has become point `σ i`. -/
def matrixTo (σ : Equiv.Perm (Fin n)) (M : Matrix (Fin n) (Fin n) ℝ) : Matrix (Fin n) (Fin n) ℝ :=
  Matrix.of fun i j => M (σ.symm i) (σ.symm j)

/-- The result of a fit when point `i` has become point `σ i`. -/
def fitTo (σ : Equiv.Perm (Fin n)) (r : ModeFit n) : ModeFit n :=
  ⟨r.F.map (valuesTo σ), r.loops, r.derivs.map fun d => (matrixTo σ d.1, valuesTo σ d.2.1, d.2.2)⟩

/-- The inversion routine does not care about the numbering. -/
def InvertsRenumbered (invert : Matrix (Fin n) (Fin n) ℝ → Option (Matrix (Fin n) (Fin n) ℝ)) : Prop :=
  ∀ (σ : Equiv.Perm (Fin n)) M, invert (matrixTo σ M) = (invert M).map (matrixTo σ)

/-- "`u` rather than `v`" written as "`v` not rather than `u`". -/
def pairFlip (p : IPair n) : IPair n := ⟨-p.dk, p.v, p.u⟩

/-- Two lists of answers that differ in their order and in which point of a pair is named first. -/
inductive SameAnswers : List (IPair n) → List (IPair n) → Prop
  | perm {l l' : List (IPair n)} : l.Perm l' → SameAnswers l l'
  | flip (p : IPair n) (l : List (IPair n)) : SameAnswers (p :: l) (pairFlip p :: l)
  | trans {l l' l'' : List (IPair n)} : SameAnswers l l' → SameAnswers l' l'' → SameAnswers l l''

end Lop.Spec
