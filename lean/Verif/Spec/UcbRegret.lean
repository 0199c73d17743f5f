import Verif.Model.UcbLoop
import Verif.Spec.GP
import Verif.Spec.Select
import Mathlib.Algebra.Order.Archimedean.Real.Basic

/-! # Specification vocabulary for learning with upper confidence bounds -/

namespace Lop.Spec

open Lop

variable {d : Nat}

/-- `f` is as smooth as the kernel says, with norm at most `B`: no linear combination of its values exceeds `B` times the standard deviation
which the kernel gives to this combination. (The ball of radius `B` of the reproducing kernel Hilbert space.) -/
def InBall (k : KExpr ℝ (Pt d)) (B : ℝ) (f : Pt d → ℝ) : Prop :=
  ∀ (n : Nat) (X : Fin n → Pt d) (c : Matrix (Fin n) (Fin n) ℝ), k.cov X X = .ok c →
    ∀ w : Fin n → ℝ, (∑ i, w i * f (X i)) ^ 2 ≤ B ^ 2 * ∑ i, ∑ j, w i * w j * c i j

/-- The kernel gives no point of `S` a variance above `v`. -/
def VarianceAtMost (k : KExpr ℝ (Pt d)) (S : Finset (Pt d)) (v : ℝ) : Prop :=
  ∀ x ∈ S, ∀ c : Matrix (Fin 1) (Fin 1) ℝ, k.cov (fun _ : Fin 1 => x) (fun _ : Fin 1 => x) = .ok c → c 0 0 ≤ v

/-- The largest value of `f` on a list of points. -/
noncomputable def bestOf (f : Pt d → ℝ) (l : List (Pt d)) : ℝ := sSup {y | ∃ x ∈ l, y = f x}

/-- The selected candidates. -/
def chosen (t : UcbTurn d) (sel : List Nat) : List (Pt d) := sel.filterMap fun i => t.cands[i]?

/-- Regret of a pass: by how much the best of the selected candidates is worse than the best candidate. -/
noncomputable def turnRegret (f : Pt d → ℝ) (t : UcbTurn d) (sel : List Nat) : ℝ := bestOf f t.cands - bestOf f (chosen t sel)

/-- Sum of the regrets of all passes. -/
noncomputable def totalRegret (f : Pt d → ℝ) (ts : List (UcbTurn d)) (sels : List (List Nat)) : ℝ :=
  (List.zipWith (turnRegret f) ts sels).sum

/-- A pass as the loop makes them: at least `q` candidates, all from `S`; sets are listed completely. -/
structure TurnOK (S : Finset (Pt d)) (q : Nat) (t : UcbTurn d) : Prop where
  mem : ∀ x ∈ t.cands, x ∈ S
  enough : q ≤ t.cands.length
  ordL : ∀ i, Enumerates (t.ordL i)
  ord : Enumerates t.ord

end Lop.Spec
