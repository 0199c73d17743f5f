import Verif.Model.Hyper
import Verif.Spec.Normal
import Mathlib.Data.EReal.Basic

/-! # Specification of the ordinal rating model and of repeated labels -/

namespace Lop.Spec

/-- The extended real number a category boundary stands for. -/
noncomputable def bndVal : Bnd ℝ → EReal
  | .neg => ⊥
  | .fin r => (r : EReal)
  | .pos => ⊤

/-- The boundaries are in non-decreasing order. -/
def BoundariesSorted (b : List (Bnd ℝ)) : Prop := b.Pairwise fun x y => bndVal x ≤ bndVal y

/-- Probability of a rating at most `k` among `t.length + 1` ratings with thresholds `t` and noise `sigma`
when the latent value is `f`. -/
noncomputable def ordCum (t : List ℝ) (sigma : ℝ) (k : Nat) (f : ℝ) : ℝ :=
  match k with
  | 0 => 0
  | k + 1 => match t[k]? with
    | some r => Phi ((r - f) / sigma)
    | none => 1

/-- Probability of the rating `k` (for `k ≥ 1`). -/
noncomputable def ordProb (t : List ℝ) (sigma : ℝ) (k : Nat) (f : ℝ) : ℝ :=
  ordCum t sigma k f - ordCum t sigma (k - 1) f

/-- Log-likelihood of a list of (rating, index) labels. -/
noncomputable def ordLogLik {m : Nat} (t : List ℝ) (sigma : ℝ) (y : List (Nat × Fin m))
    (F : Fin m → ℝ) : ℝ :=
  (y.map fun p => Real.log (ordProb t sigma p.1 (F p.2))).sum

/-- The value of the last entry with key `k`, 0 if there is none. -/
noncomputable def lastValue {κ : Type} [DecidableEq κ] (l : List (κ × ℝ)) (k : κ) : ℝ :=
  match (l.filter fun e => e.1 = k).getLast? with
  | some e => e.2
  | none => 0

/-- The sum of the values of the entries with key `k`. -/
noncomputable def sumValues {κ : Type} [DecidableEq κ] (l : List (κ × ℝ)) (k : κ) : ℝ :=
  ((l.filter fun e => e.1 = k).map (·.2)).sum

/-- `o` has the thresholds `t` (the form `set_b` gives to finite boundaries). -/
def HasThresholds (o : OrdHyper ℝ) (t : List ℝ) : Prop :=
  o.b = [.neg] ++ t.map .fin ++ [.pos] ∧ o.n = t.length + 1

/-- The two thresholds around each rating are within the clipping limits -30 and 100 of the cdf. -/
def OrdInRange {m : Nat} (t : List ℝ) (sigma : ℝ) (y : List (Nat × Fin m)) (F : Fin m → ℝ) : Prop :=
  ∀ p ∈ y, ∀ (k : Nat) (r : ℝ), (k + 1 = p.1 ∨ k + 2 = p.1) → t[k]? = some r →
    -30 ≤ (r - F p.2) / sigma ∧ (r - F p.2) / sigma ≤ 100

/-- Normal density at the standardised distance to the `k`-th threshold; 0 at the ends. -/
noncomputable def ordP (t : List ℝ) (sigma : ℝ) (k : Nat) (f : ℝ) : ℝ :=
  match k with
  | 0 => 0
  | k + 1 => match t[k]? with
    | some r => phi ((r - f) / sigma)
    | none => 0

/-- The same, multiplied by that distance. -/
noncomputable def ordZP (t : List ℝ) (sigma : ℝ) (k : Nat) (f : ℝ) : ℝ :=
  match k with
  | 0 => 0
  | k + 1 => match t[k]? with
    | some r => (r - f) / sigma * phi ((r - f) / sigma)
    | none => 0

/-- How far the value `f` lies outside the interval of the rating `k` (not positive inside it). -/
noncomputable def ordDist (t : List ℝ) (k : Nat) (f : ℝ) : ℝ :=
  max (match k with
    | k + 2 => match t[k]? with
      | some a => a - f
      | none => 0
    | _ => 0)
  (match k with
    | k + 1 => match t[k]? with
      | some b => f - b
      | none => 0
    | 0 => 0)

end Lop.Spec
