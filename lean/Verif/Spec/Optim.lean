import Mathlib.Order.Basic
import Mathlib.Logic.Relation

/-! # Specification vocabulary for the optimisation routines -/

namespace Lop.Spec

/-- `m` maximises `g` over the closed interval `[a, b]`. -/
def IsMaxOn {R S : Type*} [LE R] [LE S] (g : R → S) (a b m : R) : Prop :=
  a ≤ m ∧ m ≤ b ∧ ∀ x, a ≤ x → x ≤ b → g x ≤ g m

/-- Execution of a `while`-loop whose body may fail: `Steps step F k F' go` – from iterate `F`
(with the loop test true) `k` passes lead to `F'`, and the loop test then evaluates to `go`. -/
inductive Steps {σ ε : Type*} (step : σ → Except ε (σ × Bool)) : σ → Nat → σ → Bool → Prop
  | zero (F : σ) : Steps step F 0 F true
  | succ {F F' F'' : σ} {k : Nat} {go : Bool} :
      Steps step F k F' true → step F' = .ok (F'', go) → Steps step F (k + 1) F'' go

end Lop.Spec
