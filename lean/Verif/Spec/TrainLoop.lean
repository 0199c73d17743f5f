import Verif.Model.TrainLoop

/-! # What reducing the candidates and recording the queries should do -/

namespace Lop.Spec

variable {X : Type*}

/-- `out` consists of rows of `rows` at different positions. -/
def SubRows (rows out : List X) : Prop := ∃ idx : List Nat, idx.Nodup ∧ idx.map (rows[·]?) = out.map some

/-- Different positions of a list of `n` entries. -/
def Positions (n : Nat) (idx : List Nat) : Prop := idx.Nodup ∧ ∀ i ∈ idx, i < n

/-- What the outside functions of the reduction are taken to do: `KMedoids` gives as many different rows as asked
for and refuses an impossible number, so does `np.random.choice`, the vertices of the hull are different rows, and a
set is listed without repetition. -/
structure DownOk (E : DownEnv X) : Prop where
  kmed_ok : ∀ rows k, 0 < k → k ≤ rows.length →
    ∃ idx, E.kmed rows k = .ok idx ∧ Positions rows.length idx ∧ idx.length = k
  kmed_err : ∀ rows k, k = 0 ∨ rows.length < k → E.kmed rows k = .error .valueError
  choice_ok : ∀ (n : Nat) (k : Int), 0 ≤ k → k ≤ n →
    ∃ idx, E.choice n k = .ok idx ∧ Positions n idx ∧ (idx.length : Int) = k
  choice_err : ∀ (n : Nat) (k : Int), k < 0 ∨ (n : Int) < k → E.choice n k = .error .valueError
  hull_ok : ∀ rows h, E.hull rows = .ok h → Positions rows.length h
  ord_nodup : ∀ s, (E.ord s).Nodup
  ord_mem : ∀ s i, i ∈ E.ord s ↔ i ∈ s

/-- Position `c` of the query holds its first best candidate. -/
def FirstBest (u : List ℝ) (c : Nat) : Prop :=
  ∃ m, u[c]? = some m ∧ (∀ (j : Nat) a, u[j]? = some a → a ≤ m) ∧ ∀ (j : Nat) a, j < c → u[j]? = some a → a < m

/-- Position `c` of the query holds a best candidate. -/
def ABest (u : List ℝ) (c : Nat) : Prop := ∃ m, u[c]? = some m ∧ ∀ (j : Nat) a, u[j]? = some a → a ≤ m

end Lop.Spec
