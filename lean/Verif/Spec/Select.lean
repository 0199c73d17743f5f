import Verif.Model.Select
import Mathlib.Data.Finset.Lattice.Fold

/-! # Specification vocabulary for active-learning selections -/

namespace Lop.Spec

/-- With `N` candidates, `select_greedy` returns one of the indices it was offered (at least one, all
of them valid). -/
def PicksMember (N : Nat) (L : Learner) : Prop :=
  ∀ t idx prev, idx.Nonempty → idx ⊆ Finset.range N → ∃ i ∈ idx, L.greedy t idx prev = .ok i

/-- With `N` candidates, `select_greedy` returns one of the offered indices with the highest score. -/
def GreedyBy {S : Type*} [LinearOrder S] (N : Nat) (score : Nat → S) (L : Learner) : Prop :=
  ∀ t idx prev, idx.Nonempty → idx ⊆ Finset.range N →
    ∃ i ∈ idx, L.greedy t idx prev = .ok i ∧ ∀ j ∈ idx, score j ≤ score i

/-- `ord` lists the elements of each set (in some order). -/
def Enumerates (ord : Finset Nat → List Nat) : Prop := ∀ s i, i ∈ ord s ↔ i ∈ s

/-- The elements of a set in increasing order (an enumeration for examples). -/
def sortedList (s : Finset Nat) : List Nat := (List.range (s.sup id + 1)).filter (· ∈ s)

/-- A valid answer to "select `n` of the candidates `0..N-1`, preferring `prefer`, avoiding `prev`". -/
structure ValidSelection (N n : Nat) (prefer prev : Finset Nat) (sel : List Nat) : Prop where
  /-- as many points as asked for -/
  length : sel.length = n
  /-- no point twice -/
  nodup : sel.Nodup
  /-- only candidates that were not selected before -/
  fresh : ∀ i ∈ sel, i < N ∧ i ∉ prev
  /-- preferred points come before the others -/
  order : ∀ (j k a b : Nat), j < k → sel[j]? = some a → sel[k]? = some b → b ∈ prefer → a ∈ prefer
  /-- a non-preferred point is used only when all preferred ones have been -/
  exhaust : (∃ i ∈ sel, i ∉ prefer) → ∀ i ∈ prefer, i ∉ prev → i ∈ sel

/-- `i` has the largest value of `mu` among the positions in `S`. -/
def IsBestIn {K : Type*} [LinearOrder K] (mu : List K) (S : Finset Nat) (i : Nat) : Prop :=
  i ∈ S ∧ ∀ j ∈ S, ∀ x y, mu[i]? = some x → mu[j]? = some y → y ≤ x

/-- `sel` consists of preferred points followed by others; within each of the two parts the points are
ordered by `R` ("at least as good as") and at least as good as every available point of that kind left
out; the second part is used only when no available preferred point is left out. -/
def OrderedSelection (R : Nat → Nat → Prop) (prefer avail : Finset Nat) (sel : List Nat) : Prop :=
  ∃ p q, sel = p ++ q ∧ (∀ i ∈ p, i ∈ prefer) ∧ (∀ i ∈ q, i ∉ prefer) ∧
    p.Pairwise R ∧ q.Pairwise R ∧
    (∀ i ∈ p, ∀ j ∈ avail, j ∈ prefer → j ∉ sel → R i j) ∧
    (∀ i ∈ q, ∀ j ∈ avail, j ∉ sel → R i j) ∧
    (q ≠ [] → ∀ j ∈ avail, j ∈ prefer → j ∈ sel)

/-- Position `i` of `mu` holds a value at least as large as position `j`. -/
def ValueGE {K : Type*} [LinearOrder K] (mu : List K) (i j : Nat) : Prop :=
  ∀ x y, mu[i]? = some x → mu[j]? = some y → y ≤ x

/-- Position `i` of `mu` holds a value at most as large as position `j`. -/
def ValueLE {K : Type*} [LinearOrder K] (mu : List K) (i j : Nat) : Prop :=
  ∀ x y, mu[i]? = some x → mu[j]? = some y → x ≤ y

/-- Offered the indices `idx`, `select_pair` returns two different candidates, none selected before. -/
def PairFresh (L : Learner) (N : Nat) (prev idx : Finset Nat) : Prop :=
  ∀ p, L.pair = some p →
    ∃ a b, p 0 idx prev = .ok (a, b) ∧ a ≠ b ∧ a < N ∧ b < N ∧ a ∉ prev ∧ b ∉ prev

/-- The indices offered first: the unselected preferred candidates, or all unselected ones if there are
none. -/
def firstOffer (N : Nat) (prefer prev : Finset Nat) : Finset Nat :=
  if prefer \ prev = ∅ then Finset.range N \ prev else prefer \ prev

/-- `n` different candidates out of `0..N-1`, none selected before. -/
structure FreshChoice (N n : Nat) (prev : Finset Nat) (sel : List Nat) : Prop where
  length : sel.length = n
  nodup : sel.Nodup
  fresh : ∀ i ∈ sel, i < N ∧ i ∉ prev

/-- `sorted` is a listing of all index pairs by decreasing metric, the diagonal counting as `-∞`. -/
structure SortedPairs {K : Type*} [LinearOrder K] {N : Nat} (m : Fin N → Fin N → K)
    (sorted : List (Fin N × Fin N)) : Prop where
  nodup : sorted.Nodup
  complete : ∀ q, q ∈ sorted
  desc : sorted.Pairwise fun q q' => q'.1 ≠ q'.2 → q.1 ≠ q.2 ∧ m q'.1 q'.2 ≤ m q.1 q.2

end Lop.Spec
