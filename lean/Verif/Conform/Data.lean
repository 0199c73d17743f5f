import Verif.Model.Data
import Verif.Model.Hyper
import Mathlib.Data.Rat.Cast.Order
import Mathlib.Data.Fin.VecNotation

/-! # The repository's own tests of pairs, training data and hyper-parameters, replayed on the model

`tests/utilities/test_preference_pair.py`, `tests/models/test_preference_model.py`, `tests/probits/test_probits.py`,
`tests/kernels/test_dual_kernel.py`, `tests/models/test_hyperparameter_search.py`. Tests, not proofs. -/

namespace Lop.Conform

open Lop

/-- `test_preference`. -/
example : preference 3 1 = ⟨-1, 3, 1⟩ := by decide

/-- `test_get_dk_int`, `test_get_dk_numpy_int`. -/
example : getDk (.scalar (1 : ℤ)) (.scalar 0) = .ok (-1) ∧ getDk (.scalar (0 : ℤ)) (.scalar 0) = .ok (-1) ∧
    getDk (.scalar (0 : ℤ)) (.scalar 1) = .ok 1 ∧ getDk (.scalar (1 : ℤ)) (.scalar 4) = .ok 1 := by decide +kernel

/-- `test_get_dk_vector`. -/
example : getDk (.sequence : PyArg ℤ) .sequence = .error .typeError ∧ getDk (.sequence : PyArg ℤ) (.scalar 1) = .error .typeError :=
  ⟨rfl, rfl⟩

/-- `test_fake_pairs`. -/
example : generateFakePairs [(0 : ℤ), 1, 2, 3] 0 = .ok [⟨1, 0, 1⟩, ⟨1, 0, 2⟩, ⟨1, 0, 3⟩] := by decide +kernel

/-- `test_gen_pairs_from_idx`. -/
example : genPairsFromIdx 3 [0, 1, 2, 3] = [⟨-1, 3, 0⟩, ⟨-1, 3, 1⟩, ⟨-1, 3, 2⟩] := by decide

/-- The one-dimensional points of the tests. -/
def pts (l : List ℚ) : List (Fin 1 → ℚ) := l.map fun x => ![x]

/-- `test_preference_model_add_ordinal`: two accepted calls, then an `Exception`. -/
example :
    let st1 := modelAdd false ({} : ModelState 1 ℚ ℚ) (pts [0, 1, 2, 3, 42 / 10, 6, 7]) (.ordinalVec [1, 2, 2, 1, 4, 5, 3])
    let st2 := modelAdd false st1.1 (pts [0, 1, 2, 3, 42 / 10, 6, 7]) (.ordinalVec [1, 2, 2, 1, 4, 5, 3])
    let st3 := modelAdd false st2.1 (pts [0, 1, 2, 3, 42 / 10, 6, 7]) (.ordinalVec [-1, 1, 2, 4, 5, 0, 1])
    st1.2 = none ∧ st2.2 = none ∧ st3.2 = some .exception := by decide +kernel

/-- `test_preference_model_add_abs_bound`. -/
example : (modelAdd false ({} : ModelState 1 ℚ ℚ) (pts [0, 1, 2, 3, 42 / 10, 6, 7])
    (.absVec [1 / 5, 2 / 5, 2 / 5, 1 / 5, 3 / 5, 4 / 5, 1 / 50])).2 = none := by decide +kernel

/-- The pairs of the following tests: `(get_dk(0,1), 0, 1), (get_dk(1,0), 1, 2)`. -/
def twoPairs : List Pair := [⟨getDkScalar (0 : ℤ) 1, 0, 1⟩, ⟨getDkScalar (1 : ℤ) 0, 1, 2⟩]

/-- `test_preference_model_pairs_second_part_1`. -/
example :
    let st := modelAdd false ({} : ModelState 1 ℚ ℚ) (pts [0]) (.absVec [1 / 2])
    (modelAdd false st.1 (pts [1, 2, 3]) (.pairs twoPairs)).1.y.rel = some [⟨1, 1, 2⟩, ⟨-1, 2, 3⟩] := by decide +kernel

/-- `test_preference_model_pairs_second_part_2`. -/
example :
    let st := modelAdd false ({} : ModelState 1 ℚ ℚ) (pts [0, 5, 7]) (.absVec [1 / 2, 7 / 10, 1 / 5])
    let st := modelAdd false st.1 (pts [1, 2, 3]) (.pairs twoPairs)
    st.1.y.rel = some [⟨1, 3, 4⟩, ⟨-1, 4, 5⟩] ∧ (st.1.y.abs.map fun l => l.map (·.2)) = some [0, 1, 2] := by decide +kernel

/-- `test_preference_model_pairs_first`. -/
example :
    let st := modelAdd false ({} : ModelState 1 ℚ ℚ) (pts [1, 2, 3]) (.pairs twoPairs)
    let st := modelAdd false st.1 (pts [0, 4]) (.absVec [1 / 2, 7 / 10])
    st.1.y.rel = some [⟨1, 0, 1⟩, ⟨-1, 1, 2⟩] ∧ (st.1.y.abs.map fun l => l.map (·.2)) = some [3, 4] := by decide +kernel

/-- A new model with the default probits (`PreferenceModel.py:49-51`): sigma 1/2 for pairs, sigma 1 and five
labels for labels, sigma 1 and precision 80 for ratings. -/
def fresh (hasPref hasAbs : Bool) : HyperState ℚ Unit :=
  { pref := { sigma := 1 / 2 }, ord := { sigma := 1, n := 5, b := [] }, abs := { sigma := 1, v := 80 }, hasPref := hasPref,
    hasOrd := false, hasAbs := hasAbs, kern := .leaf (.rbf (1 / 2) (7 / 10) 0) }

/-- `test_preference_model_get_set_hyperparameters_pairs`, `..._multiple_y_trains`: lengths 0, 1 and 2. -/
example : (fresh false false).getProbitHyper.map List.length = .ok 0 ∧ (fresh true false).getProbitHyper.map List.length = .ok 1 ∧
    (fresh true true).getProbitHyper.map List.length = .ok 2 := by decide +kernel

/-- `test_grad_hyper`: with `hyperparam_only_probit=False` the kernel parameters come first as long as there is no data. -/
example : ({ fresh false false with onlyProbit := false } : HyperState ℚ Unit).getHyper = .ok [1 / 2, 7 / 10] := by decide +kernel

/-- `test_preference_hyper_modification`. -/
example : ({ sigma := 1 } : PrefHyper ℚ).getHyper.length = 1 ∧
    (({ sigma := 1 } : PrefHyper ℚ).setHyper [1 / 10]).map (fun p => (p.sigma, p.getHyper)) = .ok (1 / 10, [1 / 10]) := by
  decide +kernel

/-- `test_abs_bound_hyper_modification`. -/
example : ({ sigma := 1, v := 80, vOnly := false } : AbsHyper ℚ).getHyper.length = 2 ∧
    (({ sigma := 1, v := 80, vOnly := false } : AbsHyper ℚ).setHyper [1 / 10, 423 / 100]).map
      (fun p => (p.sigma, p.v, p.getHyper)) = .ok (1 / 10, 423 / 100, [1 / 10, 423 / 100]) := by
  decide +kernel

/-- `test_ordinal_hyper_modification`: `b[-2]` and the vector. -/
example : (OrdHyper.init (1 : ℚ) 1 5).bind (fun o => o.getHyper.map List.length) = .ok 2 ∧
    (((OrdHyper.init (1 : ℚ) 1 5).bind fun o => o.setHyper [1 / 10, 423 / 100]).bind fun o =>
      o.getHyper.map fun h => (o.sigma, o.b.reverse[1]?, h)) = .ok (1 / 10, some (.fin (423 / 100)), [1 / 10, 423 / 100]) := by
  decide +kernel

/-- The kernel of `test_combined_kern`. -/
def combined : KExpr ℚ Unit :=
  .dual .add (.leaf (.rbf 1 1 0)) (.dual .mul (.leaf (.periodic 1 1 3)) (.leaf (.linear 1 1 1)))

/-- `test_combined_kern`. -/
example : combined.getParam = [1, 1, 1, 1, 3, 1, 1, 1] ∧
    (combined.setParam [2, 3, 5, 4, 7, 1, 1, 2]).map KExpr.getParam = .ok [2, 3, 5, 4, 7, 1, 1, 2] := by decide +kernel

end Lop.Conform
