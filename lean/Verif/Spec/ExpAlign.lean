import Mathlib.Data.Real.Basic
import Mathlib.Data.Fintype.BigOperators

/-! # Specification of the expected alignment of a query -/

namespace Lop.Spec

open Finset

variable {M n : Nat}

/-- Posterior weight of sample `w` after answer `q`, starting from equal weights. -/
noncomputable def postWeight (π : Fin M → Fin n → ℝ) (q : Fin n) (w : Fin M) : ℝ :=
  π w q / ∑ k, π k q

/-- Expected alignment after the answer to a query: the average over the answers (with their predicted
probabilities) of the alignment of two independent draws from the posterior. -/
noncomputable def expectedAlign (f : Fin M → Fin M → ℝ) (π : Fin M → Fin n → ℝ) : ℝ :=
  ∑ q, (∑ w, π w q) / M * ∑ w, ∑ w', postWeight π q w * postWeight π q w' * f w w'

/-- Probability that the item at position `i` of the query is chosen: proportional to the product of its
win probabilities against the items at the other positions. -/
noncomputable def chooseProb {ι : Type*} (P : ι → ι → ℝ) (Q : List ι) (i : Fin Q.length) : ℝ :=
  (∏ j ∈ univ.erase i, P Q[i] Q[j]) / ∑ k : Fin Q.length, ∏ j ∈ univ.erase k, P Q[k] Q[j]

end Lop.Spec
