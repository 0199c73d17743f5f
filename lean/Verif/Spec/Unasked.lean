import Verif.Spec.Renumber

/-! # Specification vocabulary: training points of which only some are mentioned by the labels

`e : Fin t ↪ Fin n` lists the `t` mentioned points among all `n` training points. -/

namespace Lop.Spec

open Matrix

noncomputable section

variable {n t : Nat}

/-- A comparison of mentioned points, as a comparison among all points. -/
def pairAlong (e : Fin t ↪ Fin n) (p : IPair t) : IPair n := ⟨p.dk, e p.u, e p.v⟩

/-- Labels of the mentioned points, as labels among all points. -/
def labelsAlong (e : Fin t ↪ Fin n) (y : TrainLabels t) : TrainLabels n where
  pairs := y.pairs.map fun l => l.map (pairAlong e)
  ord := y.ord.map fun l => l.map fun p => (p.1, e p.2)
  abs := y.abs.map fun l => l.map fun p => (p.1, e p.2)

/-- A vector over the mentioned points, 0 at the other points. -/
def spread (e : Fin t ↪ Fin n) (g : Fin t → ℝ) : Fin n → ℝ := Function.extend e g 0

/-- A matrix over the mentioned points, 0 in the other rows and columns. -/
def spreadMat (e : Fin t ↪ Fin n) (W : Matrix (Fin t) (Fin t) ℝ) : Matrix (Fin n) (Fin n) ℝ :=
  Matrix.of fun i j => spread e (fun a => spread e (W a) j) i

/-- Values at all points guessed from the values `f` at the mentioned points: the mean of a Gaussian with covariance `K`
given `f`. -/
def guessRest (e : Fin t ↪ Fin n) (K : Matrix (Fin n) (Fin n) ℝ) (f : Fin t → ℝ) : Fin n → ℝ :=
  K.submatrix id e *ᵥ ((K.submatrix e e)⁻¹ *ᵥ f)

/-- A comparison as it is stored in `y_train`: with plain row numbers. -/
def plainPair {n : Nat} (p : IPair n) : Pair := ⟨p.dk, p.u, p.v⟩

end

end Lop.Spec
