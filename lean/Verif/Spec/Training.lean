import Verif.Model.Training

/-! # Specification vocabulary for data splitting -/

namespace Lop.Spec

/-- `folds` is a partition of the point indices `0..N-1`: all folds together list every index exactly
once (so folds are disjoint and cover everything). -/
def IsPartition (folds : List (List Nat)) (N : Nat) : Prop :=
  folds.flatten.Perm (List.range N)

/-- What a pair label says about actual points: (label, first point, second point). -/
def pairFacts {P : Type*} (X : List P) (rel : Option (List Pair)) : List (Int × Option P × Option P) :=
  (rel.getD []).map fun p => (p.dk, X[p.u]?, X[p.v]?)

/-- What a rating label says about actual points: (rating, point). -/
def ratingFacts {P β : Type*} (X : List P) (rs : Option (List (β × Nat))) : List (β × Option P) :=
  (rs.getD []).map fun r => (r.1, X[r.2]?)

end Lop.Spec
