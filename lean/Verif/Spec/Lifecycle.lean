import Verif.Model.Lifecycle

/-! # Specification of the attachment of learners to models -/

namespace Lop.Spec

open Lop

/-- The simple learner objects a learner is made of. -/
def treeParts : LearnerTree → List Nat
  | .simple i _ => [i]
  | .two _ _ p a => treeParts p ++ treeParts a
  | .three _ _ p a c => treeParts p ++ treeParts a ++ treeParts c

/-- A simple learner working with samples. -/
def IsAcq (l : LearnerTree) : Prop := ∃ i, l = .simple i true

/-- Wherever samples are handed over, the receiving sub-learners work with samples. -/
def SamplesFit : LearnerTree → Prop
  | .simple _ _ => True
  | .two _ .sampling p a => IsAcq p ∧ IsAcq a
  | .two _ _ p a => SamplesFit p ∧ SamplesFit a
  | .three _ .sampling p a c => IsAcq p ∧ IsAcq c ∧ SamplesFit a
  | .three _ .deciding p a c => IsAcq p ∧ IsAcq c ∧ SamplesFit a
  | .three _ .one p a _ => SamplesFit p ∧ SamplesFit a

/-- An operation that attaches none of the given learner objects and does not construct the model `m`. -/
def LeavesAlone (m : Nat) (objs : List Nat) : AttachOp → Prop
  | .newModel m' none => m' ≠ m
  | .newModel m' (some l) => m' ≠ m ∧ ∀ i ∈ treeParts l, i ∉ objs
  | .setModel l _ => ∀ i ∈ treeParts l, i ∉ objs

end Lop.Spec
