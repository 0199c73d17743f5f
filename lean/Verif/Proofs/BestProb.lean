import Verif.Model.BestProb
import Verif.Spec.BestProb
import Verif.Proofs.Basic
import Verif.Proofs.Normal
import Mathlib.Algebra.BigOperators.Fin
import Mathlib.Data.List.Count
import Mathlib.Tactic.Linarith
import Mathlib.Tactic.Ring
import Mathlib.Tactic.Positivity

/-! Helper lemmas for C58 and C59. -/

namespace Lop

open Lop.Spec Finset

variable {N d : Nat}

theorem rowArgmax_spec (row : Fin N → ℝ) (hN : 0 < N) :
    ∃ i : Fin N, rowArgmax row = .ok i.1 ∧ ∀ j, row j ≤ row i := by
  obtain ⟨b, hb⟩ := npArgmax_isOk (l := List.ofFn row) (by
    intro h
    have := congrArg List.length h
    simp at this
    omega)
  obtain ⟨m, h1, h2, -⟩ := npArgmax_spec hb
  obtain ⟨hlt, hm⟩ := List.getElem?_eq_some_iff.1 h1
  have hlt' : b < N := by simpa using hlt
  refine ⟨⟨b, hlt'⟩, hb, fun j => ?_⟩
  have h3 : row ⟨b, hlt'⟩ = m := by
    rw [← hm]
    simp
  rw [h3]
  exact h2 _ (List.mem_ofFn.2 ⟨j, rfl⟩)

theorem sum_map_div_const (l : List ℝ) (c : ℝ) : (l.map (· / c)).sum = l.sum / c := by
  induction l with
  | nil => simp
  | cons a l ih => rw [List.map_cons, List.sum_cons, ih, List.sum_cons, add_div]

theorem foldl_modify_count (l : List Nat) (p : List ℝ) (hl : ∀ s ∈ l, s < p.length) :
    (l.foldl (fun (p : List ℝ) s => p.modify s (· + 1)) p).length = p.length ∧
    (∀ (i : Nat) (x : ℝ), p[i]? = some x →
      (l.foldl (fun (p : List ℝ) s => p.modify s (· + 1)) p)[i]? = some (x + l.count i)) ∧
    (l.foldl (fun (p : List ℝ) s => p.modify s (· + 1)) p).sum = p.sum + l.length := by
  induction l generalizing p with
  | nil => simp
  | cons s l ih =>
    have hs := hl s List.mem_cons_self
    have hlen : (p.modify s (· + 1)).length = p.length := List.length_modify ..
    obtain ⟨h1, h2, h3⟩ := ih (p.modify s (· + 1)) (fun t ht => by
      rw [hlen]
      exact hl t (List.mem_cons_of_mem _ ht))
    have hsum : ∀ (p : List ℝ) (s : Nat), s < p.length → (p.modify s (· + 1)).sum = p.sum + 1 := by
      intro p
      induction p with
      | nil => intro s hs; simp at hs
      | cons x p ih =>
        intro s hs
        cases s with
        | zero => simp [List.modify_cons]; ring
        | succ s =>
          simp only [List.modify_succ_cons, List.sum_cons]
          rw [ih s (by simpa using hs)]
          ring
    refine ⟨by rw [List.foldl_cons, h1, hlen], ?_, ?_⟩
    · intro i x hx
      rw [List.foldl_cons]
      by_cases hi : s = i
      · subst hi
        rw [h2 s (x + 1) (by rw [List.getElem?_modify_eq, hx]; rfl), List.count_cons_self]
        push_cast
        congr 1
        ring
      · rw [h2 i x (by simp [List.getElem?_modify, hi, hx]), List.count_cons_of_ne hi]
    · rw [List.foldl_cons, h3, hsum p s hs]
      push_cast [List.length_cons]
      ring

open MeasureTheory ProbabilityTheory

theorem gaussian_below_zero (mu : ℝ) (v : NNReal) (hv : v ≠ 0) :
    (gaussianReal mu v).real (Set.Iic 0) = Phi ((0 - mu) / Real.sqrt v) := by
  have hs : 0 < Real.sqrt v := Real.sqrt_pos.2 (by positivity)
  have hmap : gaussianReal mu v = (gaussianReal 0 1).map fun x => Real.sqrt v * x + mu := by
    rw [show (fun x => Real.sqrt v * x + mu) = (fun x => x + mu) ∘ fun x => Real.sqrt v * x from rfl,
      ← Measure.map_map (by fun_prop) (by fun_prop), gaussianReal_map_const_mul,
      gaussianReal_map_add_const]
    congr 1
    · ring
    · ext
      simp [Real.sq_sqrt v.2]
  rw [hmap, Phi]
  rw [map_measureReal_apply (by fun_prop) measurableSet_Iic]
  congr 1
  ext x
  simp only [Set.mem_preimage, Set.mem_Iic]
  rw [le_div_iff₀ hs]
  constructor <;> intro h <;> linarith

theorem dirac_below_zero (mu : ℝ) :
    (gaussianReal mu 0).real (Set.Iic 0) = if mu ≤ 0 then 1 else 0 := by
  rw [gaussianReal_zero_var, measureReal_def, Measure.dirac_apply' _ measurableSet_Iic]
  by_cases h : mu ≤ 0 <;> simp [h]

theorem orthantProb_prod {n : Nat} (mu : Fin n → ℝ) (v : Fin n → NNReal) :
    orthantProb mu v = ∏ i, (gaussianReal (mu i) (v i)).real (Set.Iic 0) := by
  unfold orthantProb
  have hset : {x : Fin n → ℝ | ∀ i, x i ≤ 0} = Set.univ.pi fun _ => Set.Iic 0 := by
    ext x
    simp only [Set.mem_setOf_eq, Set.mem_univ_pi, Set.mem_Iic]
  rw [hset, measureReal_def, Measure.pi_pi, ENNReal.toReal_prod]
  rfl

end Lop
