import Mathlib.Data.Finset.Basic
import Mathlib.Data.List.Basic
import Mathlib.Data.Finset.Dedup

/-! # Specification of a list of queries -/

namespace Lop.Spec

/-- A list of valid queries of size `k` on `n` points: strictly increasing in-range positions, no two
queries with the same points. -/
def ValidQueries (n k : Nat) (Q : List (List Nat)) : Prop :=
  (∀ q ∈ Q, q.Pairwise (· < ·) ∧ q.length = k ∧ ∀ i ∈ q, i < n) ∧
  Q.Pairwise (fun a b => a.toFinset ≠ b.toFinset)

end Lop.Spec
