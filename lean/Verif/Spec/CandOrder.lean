import Verif.Spec.Select
import Mathlib.Logic.Equiv.Basic
import Mathlib.Data.Finset.Image

/-! # Specification vocabulary: the same candidates in another order -/

namespace Lop.Spec

/-- The set of the new numbers. -/
def renumSet (π : Equiv.Perm Nat) (s : Finset Nat) : Finset Nat := s.map π.toEmbedding

/-- `l'` lists what `l` lists, position `i` having moved to position `π i`. -/
def Renumbered {K : Type*} (π : Equiv.Perm Nat) (l l' : List K) : Prop := ∀ i : Nat, l'[π i]? = l[i]?

/-- Two learners do the same about `N` candidates with old and with new numbers, on disjoint sets of offered and of selected
candidates. -/
def SameGreedy (π : Equiv.Perm Nat) (N : Nat) (L L' : Learner) : Prop :=
  ∀ t idx prev, idx ⊆ Finset.range N → prev ⊆ Finset.range N → Disjoint idx prev →
    L'.greedy t (renumSet π idx) (renumSet π prev) = (L.greedy t idx prev).map π

end Lop.Spec
