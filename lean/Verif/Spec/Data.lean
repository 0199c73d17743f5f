import Verif.Model.Data
import Verif.Spec.Pairs

/-! # Specification vocabulary for training data: what the user said, in terms of points -/

namespace Lop.Spec

variable {d : Nat} {α : Type*} [LinearOrder α] {R : Type*} [Field R] [LinearOrder R]

/-- A user's operations on the data of a model. -/
inductive Op (d : Nat) (α R : Type*)
  | add (X : List (Fin d → α)) (inp : AddInput R)
  | addPrior (pts : List (Fin d → α))
  | reset
  | predict
  | optimize

/-- The documented formats: pair indices refer to the points of the same call; rating vectors have
one entry per point, ordinals are positive, ratings lie in [0,1]. -/
def Documented : Op d α R → Prop
  | .add X (.pairs ps) => ∀ p ∈ ps, p.u < X.length ∧ p.v < X.length
  | .add X (.ordinalVec v) => v.length = X.length ∧ ∀ a ∈ v, 0 < a
  | .add X (.absVec v) => v.length = X.length ∧ ∀ a ∈ v, 0 ≤ a ∧ a ≤ 1
  | .add _ _ => False
  | .addPrior _ => False
  | _ => True

/-- Documented data input, or `add_prior`. -/
def DocumentedOrPrior : Op d α R → Prop
  | .addPrior _ => True
  | o => Documented o

/-- What the user has stated: the points, the preferences (winner, loser), the ordinal ratings
and the absolute ratings. Points that do not exist would show up as `none`. -/
structure Facts (d : Nat) (α R : Type*) where
  points : List (Fin d → α) := []
  prefs : List (Option (Fin d → α) × Option (Fin d → α)) := []
  ords : List (Option (Fin d → α) × Int) := []
  rates : List (Option (Fin d → α) × R) := []

/-- Every pair of a new point and any point it beats in all objectives. -/
def autoPrefs (X all : List (Fin d → α)) : List (Option (Fin d → α) × Option (Fin d → α)) :=
  X.flatMap fun x => (all.filter fun z => decide (∀ k, z k < x k)).map fun z => (some x, some z)

/-- The effect of an operation on what has been stated. -/
def Facts.after (pareto : Bool) (f : Facts d α R) : Op d α R → Facts d α R
  | .add X inp =>
    let f' : Facts d α R := match inp with
      | .pairs ps => { f with prefs := f.prefs ++ ps.map fun p => (X[winner p]?, X[loser p]?) }
      | .ordinalVec v => { f with ords := f.ords ++ List.zipWith (fun x a => (some x, a)) X v }
      | .absVec v =>
        let new := List.zipWith (fun x a => (some x, max (1 / 1000) (min (999 / 1000) a))) X v
        { f with rates := f.rates ++ new }
      | _ => f
    let auto := if pareto then autoPrefs X (f.points ++ X) else []
    { f' with points := f.points ++ X, prefs := f'.prefs ++ auto }
  | .reset => {}
  | _ => f

/-- Reading the stored training data back. -/
def decode (st : ModelState d α R) : Facts d α R :=
  let X := st.X.getD []
  { points := X
    prefs := (st.y.rel.getD []).map fun p => (X[winner p]?, X[loser p]?)
    ords := (st.y.ord.getD []).map fun r => (X[r.2]?, r.1)
    rates := (st.y.abs.getD []).map fun r => (X[r.2]?, r.1) }

/-- Every stored index refers to a stored point. -/
def InRange (st : ModelState d α R) : Prop :=
  (∀ p ∈ st.y.rel.getD [], p.u < (st.X.getD []).length ∧ p.v < (st.X.getD []).length) ∧
  (∀ r ∈ st.y.ord.getD [], r.2 < (st.X.getD []).length) ∧
  (∀ r ∈ st.y.abs.getD [], r.2 < (st.X.getD []).length)

/-- Executing an operation on the model. -/
def exec (pareto : Bool) (st : ModelState d α R) : Op d α R → ModelState d α R × Option PyErr
  | .add X inp => modelAdd pareto st X inp
  | .addPrior pts => Lop.addPrior pareto st pts
  | .reset => (modelReset st, none)
  | .predict => ((modelPredict st).1, none)
  | .optimize => modelOptimize st

/-- State after a history. -/
def run (pareto : Bool) (st : ModelState d α R) (ops : List (Op d α R)) : ModelState d α R :=
  ops.foldl (fun s o => (exec pareto s o).1) st

/-- A prediction at this state uses a mode fitted to exactly the data stored now (or there is no data and
the prior is used). -/
def PredictsCurrent (st : ModelState d α R) : Prop :=
  (modelPredict st).2 = st.X.map fun X => some (X, st.y)

end Lop.Spec
