import Verif.Spec.Data
import Verif.Spec.TrainLoop
import Verif.Model.TrainData
import Mathlib.Logic.Relation

/-! # What a training run should store -/

namespace Lop.Spec

variable {d : Nat}

/-- Every stated preference is between stored points, and the winner has at least the utility of the loser. -/
def Truthful (f : (Fin d → ℝ) → ℝ) (F : Facts d ℝ ℝ) : Prop :=
  ∀ p ∈ F.prefs, ∃ w l, p = (some w, some l) ∧ f l ≤ f w

/-- Every stated rating is the logistic function of four times the utility, kept within [0.001, 0.999], or the rating given
before the run. -/
def RatedByUtility (f : (Fin d → ℝ) → ℝ) (given : Option ((Fin d → ℝ) × ℝ)) (F : Facts d ℝ ℝ) : Prop :=
  ∀ r ∈ F.rates, (∃ x, r = (some x, max (1 / 1000) (min (999 / 1000) (1 / (1 + Real.exp (-4 * f x)))))) ∨
    ∃ x v, given = some (x, v) ∧ r = (some x, max (1 / 1000) (min (999 / 1000) v))

/-- The user of the pass is the perfect user with utility `f`: it chooses the first best candidate and rates by the logistic
function of four times the utility. -/
structure PerfectIn (f : (Fin d → ℝ) → ℝ) (i : DataIn d) : Prop where
  choose : ∀ q b, i.choose q = .ok b → FirstBest (q.map f) b
  rate : ∀ x, i.rate x = .ok (1 / (1 + Real.exp (-4 * f x)))

/-- The user answers: it chooses one of the candidates offered and rates within [0,1]. -/
structure Answers (i : DataIn d) : Prop where
  choose : ∀ q, q ≠ [] → ∃ b < q.length, i.choose q = .ok b
  rate : ∀ x, ∃ r, i.rate x = .ok r ∧ 0 ≤ r ∧ r ≤ 1

/-- The pass can be carried out: at least two candidates, the reduction and the selection give candidates and positions among
them, and the evaluation returns. -/
structure Feasible (i : DataIn d) : Prop where
  two : 2 ≤ i.paths.length
  rows : ∃ rows, i.rewards = .ok rows ∧ ∃ sel hidden, i.select = .ok (sel, hidden) ∧ sel ≠ [] ∧
    (∀ s ∈ sel, s < rows.length) ∧ ∀ s ∈ hidden, s < rows.length
  eval : i.eval = .ok ()

/-- The candidates shown in the pass. -/
def Shown (i : DataIn d) (q : List (Fin d → ℝ)) : Prop :=
  ∃ rows sel hidden, i.rewards = .ok rows ∧ i.select = .ok (sel, hidden) ∧ q.map some = sel.map (rows[·]?)

/-- `x` is one of the candidates shown in the pass. -/
def Offered (i : DataIn d) (x : Fin d → ℝ) : Prop :=
  ∃ rows sel hidden n, i.rewards = .ok rows ∧ i.select = .ok (sel, hidden) ∧ n ∈ sel ∧ rows[n]? = some x

/-- The candidates selected but not shown in the pass. -/
def NotShown (i : DataIn d) (h : List (Fin d → ℝ)) : Prop :=
  ∃ rows sel hidden, i.rewards = .ok rows ∧ i.select = .ok (sel, hidden) ∧ h.map some = hidden.map (rows[·]?)

/-- The preferences of choosing position `b` of `q`: it beats every other position. -/
def chosenOver (q : List (Fin d → ℝ)) (b : Nat) : List (Option (Fin d → ℝ) × Option (Fin d → ℝ)) :=
  (q.eraseIdx b).map fun z => (q[b]?, some z)

/-- In one of the passes the user was shown a query with `w` and, elsewhere in it, `l`, and chose `w`. -/
def Said (steps : List (DataIn d)) (w l : Fin d → ℝ) : Prop :=
  ∃ i ∈ steps, ∃ q b, Shown i q ∧ i.choose q = .ok b ∧ q[b]? = some w ∧ l ∈ q.eraseIdx b

/-- In one of the passes the user was shown `x` and rated it `v`. -/
def Rated (steps : List (DataIn d)) (x : Fin d → ℝ) (v : ℝ) : Prop := ∃ i ∈ steps, Offered i x ∧ i.rate x = .ok v

/-- `a` has been stated, directly or through others, to be at least as good as `b`. -/
def StatedBetter (F : Facts d ℝ ℝ) : (Fin d → ℝ) → (Fin d → ℝ) → Prop :=
  Relation.TransGen fun a b => (some a, some b) ∈ F.prefs

end Lop.Spec
