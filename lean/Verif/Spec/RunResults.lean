import Verif.Model.Basic

/-! # What a training run should do with the planning problems -/

namespace Lop.Spec

/-- What `np.random.choice(n, size=k, replace=False)` may return. -/
def DrawOf (draw : List Nat) (n k : Nat) : Prop := draw.length = k ∧ draw.Nodup ∧ ∀ i ∈ draw, i < n

/-- The passes over the problems `ps`. -/
def passes {P S : Type*} (step : P → S → Except PyErr S) : List P → S → Except PyErr S
  | [], s => .ok s
  | p :: ps, s => match step p s with
    | .error e => .error e
    | .ok s => passes step ps s

end Lop.Spec
