import Verif.Spec.LinearBest
import Verif.Model.Data

/-! # Specification vocabulary: answers that follow a utility -/

namespace Lop.Spec

variable {d : Nat}

/-- Every stored pair says that its first item is preferred, names two stored items, and the first is worth at least as
much. -/
def PairsTruthful (f : (Fin d → ℝ) → ℝ) (X : List (Fin d → ℝ)) (rel : List Pair) : Prop :=
  ∀ p ∈ rel, p.dk = -1 ∧ ∃ a b, X[p.u]? = some a ∧ X[p.v]? = some b ∧ f b ≤ f a

/-- Some stored pair is about two items of different value. -/
def SomeStrict (f : (Fin d → ℝ) → ℝ) (X : List (Fin d → ℝ)) (rel : List Pair) : Prop :=
  ∃ p ∈ rel, ∃ a b, X[p.u]? = some a ∧ X[p.v]? = some b ∧ f b < f a

/-- The items of a question do not all have the same value. -/
def NotTied (f : (Fin d → ℝ) → ℝ) (q : List (Fin d → ℝ)) : Prop := ∃ a ∈ q, ∃ b ∈ q, f b < f a

/-- The rows of the label array, as plain pairs. -/
def plainPairs {n : Nat} (y : List (IPair n)) : List Pair := y.map fun p => ⟨p.dk, p.u, p.v⟩

end Lop.Spec
