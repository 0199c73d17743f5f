import Mathlib.Analysis.SpecialFunctions.Log.Base
import Mathlib.Data.Fintype.BigOperators

/-! # Entropy and mutual information of finite distributions -/

namespace Lop.Spec

open Finset

/-- Entropy in bits. -/
noncomputable def entropy2 {n : Nat} (p : Fin n → ℝ) : ℝ := -∑ j, p j * Real.logb 2 (p j)

/-- Mutual information (in bits) of an answer and the uniformly distributed sample number, when the
answer has distribution `p i` for sample `i`: entropy of the average minus average entropy. -/
noncomputable def mutualInfo2 {s n : Nat} (p : Fin s → Fin n → ℝ) : ℝ :=
  entropy2 (fun j => (∑ i, p i j) / s) - (∑ i, entropy2 (p i)) / s

/-- `p` is a probability vector. -/
def IsDist {ι : Type*} [Fintype ι] (p : ι → ℝ) : Prop := (∀ i, 0 ≤ p i) ∧ ∑ i, p i = 1

end Lop.Spec
