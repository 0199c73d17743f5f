import Verif.Spec.GPPosterior
import Verif.Model.UcbLoop

/-! # Specification vocabulary: measuring where the previous measurements suggest -/

namespace Lop.Spec

open MeasureTheory

variable {d : Nat}

/-- The training data after the values `v 0, …, v (T - 1)` have been measured at `z 0, …, z (T - 1)` with noises `s`. -/
def dataOf (mean : Pt d → ℝ) (z : Nat → Pt d) (s v : Nat → ℝ) (T : Nat) : GPState d :=
  (List.range T).foldl (fun st j => gpAdd mean st [(z j, v j, s j)]) none

/-- Active learning of `f`: pass `t` looks at the training data, chooses a point by the rule `pick t`, measures `f` there with the error `e t`, and adds the
result to the training data. -/
def activeRun (mean : Pt d → ℝ) (pick : Nat → GPState d → Pt d) (f : Pt d → ℝ) (s e : Nat → ℝ) : Nat → GPState d
  | 0 => none
  | t + 1 =>
    let st := activeRun mean pick f s e t
    gpAdd mean st [(pick t st, f (pick t st) + e t, s t)]

/-- An event about the training data after `T` passes which, at fixed points, is a measurable condition on the measured values. -/
def DataEvent (mean : Pt d → ℝ) (s : Nat → ℝ) (T : Nat) (E : Set (GPState d)) : Prop :=
  ∀ z : Nat → Pt d, MeasurableSet {v : Nat → ℝ | dataOf mean z s v T ∈ E}

/-- A rule for choosing points from a finite set which depends measurably on the measured values. -/
structure IsRule (mean : Pt d → ℝ) (s : Nat → ℝ) (S : Finset (Pt d)) (pick : Nat → GPState d → Pt d) : Prop where
  inside : ∀ t st, pick t st ∈ S
  event : ∀ t x, DataEvent mean s t {st | pick t st = x}

/-- The candidate a pass of the loop with `UCBLearner` chooses when asked for one. -/
noncomputable def ucbChoice (cov : CovFn d) (alpha : ℝ) (turn : UcbTurn d) (st : GPState d) : Pt d :=
  match ucbTurn cov alpha 1 (fun _ => 0) 1 turn st with
  | .ok (i :: _, _) => (turn.cands[i]?).getD (turn.cands.headD 0)
  | _ => turn.cands.headD 0

/-- The loop with `UCBLearner` choosing one candidate per pass, where pass `t` measures with the error `e t`: the training data after every pass. -/
noncomputable def noisyUcb (cov : CovFn d) (alpha : ℝ) (f : Pt d → ℝ) (s e : Nat → ℝ) (turns : Nat → UcbTurn d) : Nat → Except PyErr (GPState d)
  | 0 => .ok none
  | t + 1 => match noisyUcb cov alpha f s e turns t with
    | .error x => .error x
    | .ok st => match ucbTurn cov alpha (s t) (fun x => f x + e t) 1 (turns t) st with
      | .error x => .error x
      | .ok (_, st') => .ok st'

end Lop.Spec
