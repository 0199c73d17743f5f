import Verif.Spec.GPActive
import Mathlib.MeasureTheory.Constructions.BorelSpace.Basic
import Mathlib.MeasureTheory.Measure.Restrict

/-! # Lemmas about active learning: paths of measured points -/

namespace Lop

open Spec MeasureTheory

variable {d : Nat}

theorem dataOf_succ (mean : Pt d → ℝ) (z : Nat → Pt d) (s v : Nat → ℝ) (t : Nat) :
    dataOf mean z s v (t + 1) = gpAdd mean (dataOf mean z s v t) [(z t, v t, s t)] := by
  simp [dataOf, List.range_succ]

theorem dataOf_congr (mean : Pt d → ℝ) {z z' : Nat → Pt d} (s : Nat → ℝ) {v v' : Nat → ℝ} {t : Nat} (hz : ∀ j < t, z j = z' j)
    (hv : ∀ j < t, v j = v' j) : dataOf mean z s v t = dataOf mean z' s v' t := by
  induction t with
  | zero => rfl
  | succ t ih =>
    rw [dataOf_succ, dataOf_succ, ih (fun j h => hz j (by omega)) (fun j h => hv j (by omega)), hz t (by omega), hv t (by omega)]

/-- The run follows the path `z` for `T` passes exactly if the rule, shown the data measured along `z`, chooses the points of `z`; then its data are those. -/
theorem follows_iff (mean : Pt d → ℝ) (pick : Nat → GPState d → Pt d) (f : Pt d → ℝ) (s e : Nat → ℝ) (z : Nat → Pt d) (T : Nat) :
    (∀ t < T, pick t (activeRun mean pick f s e t) = z t) ↔ ∀ t < T, pick t (dataOf mean z s (fun j => f (z j) + e j) t) = z t := by
  have key : ∀ t, (∀ j < t, pick j (activeRun mean pick f s e j) = z j) →
      activeRun mean pick f s e t = dataOf mean z s (fun j => f (z j) + e j) t := by
    intro t
    induction t with
    | zero => intro _; rfl
    | succ t ih =>
      intro h
      rw [dataOf_succ, ← ih fun j hj => h j (by omega)]
      simp only [activeRun]
      rw [h t (by omega)]
  constructor
  · intro h t ht
    rw [← key t fun j hj => h j (by omega)]
    exact h t ht
  · intro h t
    induction t using Nat.strong_induction_on with
    | _ t ih =>
      intro ht
      rw [key t fun j hj => ih j hj (by omega)]
      exact h t ht

theorem follows_data (mean : Pt d → ℝ) (pick : Nat → GPState d → Pt d) (f : Pt d → ℝ) (s e : Nat → ℝ) (z : Nat → Pt d) {T : Nat}
    (h : ∀ t < T, pick t (activeRun mean pick f s e t) = z t) :
    activeRun mean pick f s e T = dataOf mean z s (fun j => f (z j) + e j) T := by
  induction T with
  | zero => rfl
  | succ t ih =>
    rw [dataOf_succ, ← ih fun j hj => h j (by omega)]
    simp only [activeRun]
    rw [h t (by omega)]

/-- A finite vector of values, extended by zeros. -/
def extend {T : Nat} (v : Fin T → ℝ) (j : Nat) : ℝ := if h : j < T then v ⟨j, h⟩ else 0

theorem extend_measurable {T : Nat} : Measurable (extend (T := T)) := by
  refine measurable_pi_lambda _ fun j => ?_
  unfold extend
  split
  · exact measurable_pi_apply _
  · exact measurable_const

theorem extend_eq {T : Nat} (v : Nat → ℝ) {j : Nat} (h : j < T) : extend (fun t : Fin T => v t) j = v j := by
  simp [extend, h]

theorem measure_sum_parts {Ω ι : Type*} [MeasurableSpace Ω] [Fintype ι] (μ : Measure Ω) {E : ι → Set Ω} (hE : ∀ p, MeasurableSet (E p))
    (hd : Pairwise fun p q => Disjoint (E p) (E q)) (hc : ∀ ω, ∃ p, ω ∈ E p) (A : Set Ω) : μ A = ∑ p, μ (A ∩ E p) := by
  have h1 : μ A = μ.restrict A (⋃ p, E p) := by
    rw [show (⋃ p, E p) = Set.univ from Set.eq_univ_of_forall fun ω => Set.mem_iUnion.2 (hc ω), Measure.restrict_apply_univ]
  rw [h1, measure_iUnion hd hE, tsum_fintype]
  exact Finset.sum_congr rfl fun p _ => by rw [Measure.restrict_apply (hE p), Set.inter_comm]

end Lop
