import Verif.Model.BestProb
import Verif.Spec.BestProb
import Verif.Spec.InfoGain
import Verif.Proofs.BestProb
import Mathlib.LinearAlgebra.Matrix.PosDef
import Mathlib.Algebra.BigOperators.Fin
import Mathlib.Algebra.BigOperators.Field
import Mathlib.Data.List.Count
import Mathlib.Tactic.Linarith
import Mathlib.Tactic.FinCases
import Mathlib.Data.Fin.VecNotation
import Mathlib.Tactic.FieldSimp
import Mathlib.Tactic.Ring
import Mathlib.Tactic.NormNum
import Mathlib.Tactic.Positivity

/-! # C58 best-point probabilities, C59 orthant probability -/

namespace Lop.Props

open Lop Lop.Spec Finset

section C58

variable {N d : Nat}

/-- C58: with at least one candidate and one weight sample the result is a probability vector; the
entry of a candidate is the fraction of the samples assigned to it, every sample being assigned to a
candidate that is best for it. -/
theorem C58_linear (hN : 0 < N) (X : Fin N → Fin d → ℝ) (w : List (Fin d → ℝ)) (hw : w ≠ []) :
    ∃ (p : List ℝ) (best : (Fin d → ℝ) → Fin N), pBLinear X w = .ok (some p) ∧ p.length = N ∧
      (∀ x ∈ p, 0 ≤ x) ∧ p.sum = 1 ∧
      (∀ wk i, ∑ k, X i k * wk k ≤ ∑ k, X (best wk) k * wk k) ∧
      ∀ i : Fin N, p[i.1]? = some (((w.map best).count i : ℝ) / w.length) := by
  have hb : ∀ wk : Fin d → ℝ, ∃ i : Fin N, rowArgmax (fun i => ∑ k, X i k * wk k) = .ok i.1 ∧
      ∀ j, ∑ k, X j k * wk k ≤ ∑ k, X i k * wk k := fun wk => rowArgmax_spec _ hN
  choose best hbest hmax using hb
  have hmap : w.mapM (fun wk => rowArgmax fun i => ∑ k, X i k * wk k) = .ok (w.map fun wk => (best wk).1) := by
    clear hw
    induction w with
    | nil => rfl
    | cons a l ih => rw [List.mapM_cons, hbest, ih]; rfl
  have hl : ∀ s ∈ w.map (fun wk => (best wk).1), s < (List.replicate N (0 : ℝ)).length := by
    intro s hs
    obtain ⟨wk, -, rfl⟩ := List.mem_map.1 hs
    simp
  obtain ⟨h1, h2, h3⟩ := foldl_modify_count _ _ hl
  set p := (w.map fun wk => (best wk).1).foldl (fun (p : List ℝ) s => p.modify s (· + 1))
    (List.replicate N 0) with hp
  have hsum : p.sum = w.length := by rw [h3]; simp
  have hwl : (0 : ℝ) < w.length := by exact_mod_cast List.length_pos_iff.2 hw
  have hcount : ∀ i : Fin N, (w.map fun wk => (best wk).1).count i.1 = (w.map best).count i := by
    intro i
    rw [← List.count_map_of_injective _ _ Fin.val_injective, List.map_map]
    rfl
  have hget : ∀ i : Fin N, p[i.1]? = some ((w.map best).count i : ℝ) := by
    intro i
    rw [h2 i.1 0 (by simp), hcount, zero_add]
  refine ⟨p.map (· / p.sum), best, ?_, by simp [h1], ?_, ?_, fun wk i => hmax wk i, ?_⟩
  · unfold pBLinear
    rw [hmap]
    simp only [bind, Except.bind, ← hp]
    rw [if_neg (by rw [hsum]; exact hwl.ne')]
    rfl
  · intro x hx
    obtain ⟨y, hy, rfl⟩ := List.mem_map.1 hx
    obtain ⟨j, hj⟩ := List.mem_iff_getElem?.1 hy
    have hjN : j < N := by
      have := (List.getElem?_eq_some_iff.1 hj).1
      rw [h1] at this
      simpa using this
    have := hget ⟨j, hjN⟩
    rw [hj] at this
    cases this
    rw [hsum]
    positivity
  · rw [sum_map_div_const, hsum, div_self hwl.ne']
  · intro i
    rw [List.getElem?_map, hget i, hsum]
    rfl

/-- The hypotheses are met: two candidates, two samples, each best for one sample. -/
example : ∃ p, pBLinear (fun i (_ : Fin 1) => if i = (0 : Fin 2) then 1 else 2)
    [fun _ => 1, fun _ => -1] = .ok (some p) ∧ p.sum = 1 := by
  obtain ⟨p, -, h, -, -, hs, -⟩ := C58_linear (N := 2) (by decide)
    (fun i (_ : Fin 1) => if i = (0 : Fin 2) then 1 else 2) [fun _ => 1, fun _ => -1] (by simp)
  exact ⟨p, h, hs⟩

/-- C58, the rejected inputs: no candidates raises (if there is a sample), no samples gives no finite
result. -/
theorem C58_linear_errors (X0 : Fin 0 → Fin d → ℝ) (X : Fin N → Fin d → ℝ) (wk : Fin d → ℝ)
    (w : List (Fin d → ℝ)) :
    pBLinear X0 (wk :: w) = .error .valueError ∧ pBLinear X [] = .ok none := by
  constructor
  · unfold pBLinear
    rw [List.mapM_cons]
    rfl
  · unfold pBLinear
    simp [bind, Except.bind, pure, Except.pure]

open Matrix in
/-- C58: for a symmetric positive semi-definite covariance `K` of the candidates, the matrix handed to the
orthant routine is the covariance of the differences to candidate `i`; it is symmetric positive
semi-definite. -/
theorem C58_gp_cov (K : Matrix (Fin N) (Fin N) ℝ) (hK : K.PosSemidef) (i : Fin N) :
    kStar K i = (diffMat (otherIdx i) i)ᵀ * K * diffMat (otherIdx i) i ∧ (kStar K i).PosSemidef := by
  have hsymm : ∀ a b, K a b = K b a := by
    intro a b
    have := hK.1.apply a b
    simpa using this.symm
  have main : kStar K i = (diffMat (otherIdx i) i)ᵀ * K * diffMat (otherIdx i) i := by
    ext j k
    rw [Matrix.mul_apply]
    simp only [Matrix.mul_apply, diffMat, transpose_apply, mul_sub, mul_ite, mul_one, mul_zero,
      sum_sub_distrib, sum_ite_eq', mem_univ, if_true, sub_mul, ite_mul, one_mul, zero_mul, kStar]
    rw [hsymm i (otherIdx i)[j]]
    ring
  refine ⟨main, ?_⟩
  rw [main]
  have := hK.conjTranspose_mul_mul_same (diffMat (otherIdx i) i)
  rwa [conjTranspose_eq_transpose_of_trivial] at this

open Matrix in
/-- C58: the compared candidates are all the others, each once, and the means are the means of the same
differences. -/
theorem C58_gp_means (mu : Fin N → ℝ) (i : Fin N) :
    (otherIdx i).Nodup ∧ (∀ a, a ∈ otherIdx i ↔ a ≠ i) ∧
    muStar mu i = (diffMat (otherIdx i) i)ᵀ *ᵥ mu := by
  refine ⟨(List.nodup_finRange N).erase _, fun a => ?_, ?_⟩
  · unfold otherIdx
    rw [(List.nodup_finRange N).mem_erase_iff]
    simp
  · ext j
    simp [Matrix.mulVec, dotProduct, diffMat, sub_mul, sum_sub_distrib, muStar]

/-- A covariance meeting the hypothesis: three candidates with independent unit values. -/
example (i : Fin 3) : (kStar (1 : Matrix (Fin 3) (Fin 3) ℝ) i).PosSemidef :=
  (C58_gp_cov 1 Matrix.PosSemidef.one i).2

/-- C58: with an orthant routine that returns non-negative numbers, one of them positive, the result is
a probability vector proportional to them. -/
theorem C58_gp_dist (cdf : ∀ n, (Fin n → ℝ) → Matrix (Fin n) (Fin n) ℝ → ℝ)
    (K : Matrix (Fin N) (Fin N) ℝ) (mu : Fin N → ℝ) (hnn : ∀ i, 0 ≤ cdf _ (muStar mu i) (kStar K i))
    (hpos : ∃ i, 0 < cdf _ (muStar mu i) (kStar K i)) :
    ∃ p, pBGp cdf K mu = some p ∧ IsDist p ∧
      ∀ i j, p i * cdf _ (muStar mu j) (kStar K j) = p j * cdf _ (muStar mu i) (kStar K i) := by
  obtain ⟨i0, h0⟩ := hpos
  have hS : 0 < ∑ i, cdf _ (muStar mu i) (kStar K i) :=
    sum_pos' (fun i _ => hnn i) ⟨i0, mem_univ _, h0⟩
  refine ⟨_, if_neg hS.ne', ⟨fun i => div_nonneg (hnn i) hS.le, ?_⟩, fun i j => ?_⟩
  · rw [← sum_div, div_self hS.ne']
  · ring

end C58

section C59

open MeasureTheory ProbabilityTheory

/-- C59, what holds: the result is the orthant probability when every variance is 1, or its mean is 0, or
it is 0 with a non-zero mean. -/
theorem C59_independent_partial {n : Nat} (mu : Fin n → ℝ) (cov : Matrix (Fin n) (Fin n) ℝ)
    (v : Fin n → NNReal) (hv : ∀ i, cov i i = v i)
    (h : ∀ i, v i = 1 ∨ (v i ≠ 0 ∧ mu i = 0) ∨ (v i = 0 ∧ mu i ≠ 0)) :
    calcCdfIndep mu cov = some (orthantProb mu v) := by
  unfold calcCdfIndep
  rw [if_neg, orthantProb_prod mu v]
  · congr 1
    refine prod_congr rfl fun i _ => ?_
    rw [hv i, ndtrBelow]
    rcases h i with h | ⟨h, h'⟩ | ⟨h, h'⟩
    · rw [gaussian_below_zero _ _ (by simp [h]), h]
      simp
    · rw [gaussian_below_zero _ _ h, if_neg (by exact_mod_cast h), h']
      simp
    · rw [h, dirac_below_zero]
      simp only [NNReal.coe_zero, if_true]
      rcases lt_or_gt_of_ne h' with h2 | h2
      · rw [if_pos h2, if_pos h2.le]
      · rw [if_neg h2.not_gt, if_neg h2.not_ge]
  · rintro ⟨i, hi, hm⟩
    rw [hv i] at hi
    have hi' : v i = 0 := by exact_mod_cast hi
    rcases h i with h | ⟨h, h'⟩ | ⟨h, h'⟩
    · simp [h] at hi'
    · exact h hi'
    · exact h' hm

/-- The hypotheses are met by three variables with variances 1, 4 and 0 and means 3, 0 and 2. -/
example : calcCdfIndep ![3, 0, 2] (fun i _ => ((![1, 4, 0] i : NNReal) : ℝ)) =
    some (orthantProb ![3, 0, 2] ![1, 4, 0]) :=
  C59_independent_partial _ _ _ (fun i => rfl) fun i => by fin_cases i <;> simp

/-- C59 refuted: for a single variable the result is the orthant probability only if the variance is 1, or
exactly one of mean and variance is 0. -/
theorem C59_false (mu : ℝ) (v : NNReal) :
    calcCdfIndep (fun _ : Fin 1 => mu) (fun _ _ => (v : ℝ)) = some (orthantProb (fun _ : Fin 1 => mu) fun _ => v) ↔
      v = 1 ∨ (v ≠ 0 ∧ mu = 0) ∨ (v = 0 ∧ mu ≠ 0) := by
  constructor
  · intro h1
    by_cases hv : v = 0
    · right; right
      refine ⟨hv, fun hm => ?_⟩
      unfold calcCdfIndep at h1
      rw [if_pos ⟨0, by simp [hv], hm⟩] at h1
      cases h1
    have hv' : (v : ℝ) ≠ 0 := by exact_mod_cast hv
    have hv0 : (0 : ℝ) < v := lt_of_le_of_ne v.2 (Ne.symm hv')
    unfold calcCdfIndep at h1
    rw [if_neg (by simp [hv]), orthantProb_prod, gaussian_below_zero _ _ hv] at h1
    simp only [Finset.univ_unique, prod_singleton, Option.some.injEq, ndtrBelow, if_neg hv'] at h1
    have h3 := Phi_strictMono.injective h1
    by_cases hmu : mu = 0
    · exact .inr (.inl ⟨hv, hmu⟩)
    · left
      have hs : 0 < Real.sqrt v := Real.sqrt_pos.2 hv0
      have h4 : (v : ℝ) = Real.sqrt v := by
        rw [div_eq_div_iff hv' hs.ne'] at h3
        have : (0 - mu) ≠ 0 := by simpa using hmu
        exact (mul_left_cancel₀ this h3).symm
      have h5 : Real.sqrt v * Real.sqrt v = v := Real.mul_self_sqrt v.2
      have h6 : (v : ℝ) = 1 := by
        rw [← h4] at h5
        exact mul_left_cancel₀ hv' (by linarith)
      exact_mod_cast h6
  · intro h
    exact C59_independent_partial (fun _ => mu) _ (fun _ => v) (fun _ => rfl) fun _ => h

/-- A concrete failure: mean 1 and variance 4. -/
example : calcCdfIndep (fun _ : Fin 1 => 1) (fun _ _ => ((4 : NNReal) : ℝ)) ≠
    some (orthantProb (fun _ : Fin 1 => 1) fun _ => 4) := by
  rw [Ne, C59_false 1 4]
  norm_num

/-- The method 'switch' fails on every covariance without correlations (two or more variables): the pair
of "most correlated" variables is a variable with itself, whose covariance matrix is singular. -/
theorem C59_switch_counterexample {n : Nat} (bvn : ℝ × ℝ → ℝ × ℝ × ℝ → ℝ) (mu : Fin (n + 2) → ℝ)
    (cov : Matrix (Fin (n + 2)) (Fin (n + 2)) ℝ) (hd : ∀ i j, i ≠ j → cov i j = 0) :
    calcCdfSwitch bvn mu cov = .error .valueError := by
  have hz : ∀ l : List (Fin (n + 2)), l ≠ [] → npArgmax (l.flatMap fun a => l.map fun b =>
      if a = b then 0 else |cov a b|) = .ok 0 := by
    intro l hl
    have hall : ∀ x ∈ (l.flatMap fun a => l.map fun b => if a = b then 0 else |cov a b|), x = 0 := by
      intro x hx
      simp only [List.mem_flatMap, List.mem_map] at hx
      obtain ⟨a, -, b, -, rfl⟩ := hx
      split
      · rfl
      · next h => rw [hd a b h, abs_zero]
    have hne : (l.flatMap fun a => l.map fun b => if a = b then 0 else |cov a b|) ≠ [] := by
      obtain ⟨x, l, rfl⟩ := List.exists_cons_of_ne_nil hl
      simp
    obtain ⟨b, hb⟩ := npArgmax_isOk hne
    obtain ⟨m, h1, -, h3⟩ := npArgmax_spec hb
    rcases Nat.eq_zero_or_pos b with rfl | hpos
    · exact hb
    · exfalso
      obtain ⟨hlt, hm⟩ := List.getElem?_eq_some_iff.1 h1
      have h4 := h3 0 _ hpos (List.getElem?_eq_getElem (by omega))
      have e1 := hall _ (List.getElem_mem (by omega : 0 < _))
      have e2 : m = 0 := hm ▸ hall _ (List.getElem_mem hlt)
      rw [e1, e2] at h4
      exact lt_irrefl _ h4
  unfold calcCdfSwitch
  obtain ⟨x, y, rest, hl⟩ : ∃ x y rest, List.finRange (n + 2) = x :: y :: rest :=
    ⟨0, 1, _, by rw [List.finRange_succ, List.finRange_succ]; rfl⟩
  rw [hl]
  unfold switchLoop switchPick
  rw [hz _ (by simp)]
  simp only [Except.map, bind, Except.bind, Nat.zero_div, Nat.zero_mod, List.getElem?_cons_zero]
  rw [if_neg]
  rintro ⟨-, -, h⟩
  simp at h

/-- For two correlated variables 'switch' returns the bivariate probability itself. -/
theorem C59_switch_pair_partial (bvn : ℝ × ℝ → ℝ × ℝ × ℝ → ℝ) (mu : Fin 2 → ℝ)
    (cov : Matrix (Fin 2) (Fin 2) ℝ) (hs : cov 0 1 = cov 1 0) (hc : cov 0 1 ≠ 0) (h0 : 0 < cov 0 0)
    (hdet : 0 < cov 0 0 * cov 1 1 - cov 0 1 * cov 1 0) :
    calcCdfSwitch bvn mu cov = .ok (some (bvn (mu 0, mu 1) (cov 0 0, cov 0 1, cov 1 1))) := by
  have hf : List.finRange 2 = [0, 1] := rfl
  have hpos : 0 < |cov 0 1| := abs_pos.2 hc
  unfold calcCdfSwitch
  rw [hf]
  unfold switchLoop switchPick
  have harg : npArgmax (([0, 1] : List (Fin 2)).flatMap fun a => [0, 1].map fun b =>
      if a = b then 0 else |cov a b|) = .ok 1 := by
    simp [npArgmax, argmaxFrom, hpos, hs ▸ hpos, hs]
  rw [harg]
  simp only [Except.map, bind, Except.bind]
  rw [hs] at hdet
  have hdet' : cov 1 0 * cov 1 0 < cov 0 0 * cov 1 1 := by linarith
  simp [h0, hs, hdet', switchLoop]

/-- C59: whatever 'switch' returns is a product with one factor for each variable: the variables are split into
pairs, contributing their bivariate probability, and at most one remaining variable, contributing its own. -/
theorem C59_switch_product {n : Nat} (bvn : ℝ × ℝ → ℝ × ℝ × ℝ → ℝ) (mu : Fin n → ℝ)
    (cov : Matrix (Fin n) (Fin n) ℝ) (v : ℝ) (h : calcCdfSwitch bvn mu cov = .ok (some v)) :
    ∃ (pairs : List (Fin n × Fin n)) (single : List (Fin n)), single.length ≤ 1 ∧
      (pairs.flatMap (fun q => [q.1, q.2]) ++ single).Perm (List.finRange n) ∧
      v = (pairs.map fun q => bvn (mu q.1, mu q.2) (cov q.1 q.1, cov q.1 q.2, cov q.2 q.2)).prod *
        (single.map fun i => ndtrBelow (mu i) (cov i i)).prod := by
  have key : ∀ (fuel : Nat) (l : List (Fin n)) (p : ℝ), l.Nodup → switchLoop bvn mu cov fuel l p = .ok (some v) →
      ∃ (pairs : List (Fin n × Fin n)) (single : List (Fin n)), single.length ≤ 1 ∧
        (pairs.flatMap (fun q => [q.1, q.2]) ++ single).Perm l ∧
        v = p * (pairs.map fun q => bvn (mu q.1, mu q.2) (cov q.1 q.1, cov q.1 q.2, cov q.2 q.2)).prod *
          (single.map fun i => ndtrBelow (mu i) (cov i i)).prod := by
    intro fuel
    have base : ∀ (fuel : Nat) (l : List (Fin n)) (p : ℝ), l.length ≤ 1 →
        switchLoop bvn mu cov fuel l p = .ok (some v) →
        v = p * (l.map fun i => ndtrBelow (mu i) (cov i i)).prod := by
      intro fuel l p hl h
      match l, hl with
      | [], _ =>
        cases fuel <;> simp only [switchLoop, Except.ok.injEq, Option.some.injEq] at h <;> simp [← h]
      | [i], _ =>
        have h' : (if cov i i = 0 ∧ mu i = 0 then none else some (p * ndtrBelow (mu i) (cov i i))) = some v := by
          cases fuel <;> simpa only [switchLoop, Except.ok.injEq] using h
        split at h'
        · cases h'
        · simp only [Option.some.injEq] at h'
          simp [← h']
    induction fuel with
    | zero =>
      intro l p hn h
      match l with
      | [] => exact ⟨[], [], by simp, by simp, by simpa using base 0 [] p (by simp) h⟩
      | [i] => exact ⟨[], [i], by simp, by simp, by simpa using base 0 [i] p (by simp) h⟩
      | i :: j :: rest => simp [switchLoop] at h
    | succ fuel ih =>
      intro l p hn h
      match l with
      | [] => exact ⟨[], [], by simp, by simp, by simpa using base _ [] p (by simp) h⟩
      | [i] => exact ⟨[], [i], by simp, by simp, by simpa using base _ [i] p (by simp) h⟩
      | i :: j :: rest =>
        generalize hL : i :: j :: rest = L at *
        rw [← hL, switchLoop, hL] at h
        cases hp : switchPick cov L with
        | error e => rw [hp] at h; cases h
        | ok ab =>
          obtain ⟨a, b⟩ := ab
          rw [hp] at h
          change (match L[a]?, L[b]? with
            | some x, some y => if 0 < cov x x ∧ cov x y = cov y x ∧ 0 < cov x x * cov y y - cov x y * cov y x then
                switchLoop bvn mu cov fuel ((L.eraseIdx (max a b)).eraseIdx (min a b))
                  (p * bvn (mu x, mu y) (cov x x, cov x y, cov y y)) else .error .valueError
            | _, _ => .error .indexError) = _ at h
          rcases hx : L[a]? with _ | x
          · rw [hx] at h; cases h
          rcases hy : L[b]? with _ | y
          · rw [hx, hy] at h; cases h
          rw [hx, hy] at h
          simp only at h
          split at h
          case isFalse => cases h
          next hc =>
          have hne : a ≠ b := by
            rintro rfl
            rw [hx, Option.some.injEq] at hy
            subst hy
            simp at hc
          obtain ⟨ha, hxa⟩ := List.getElem?_eq_some_iff.1 hx
          obtain ⟨hb, hyb⟩ := List.getElem?_eq_some_iff.1 hy
          have hperm : ([x, y] ++ (L.eraseIdx (max a b)).eraseIdx (min a b)).Perm L := by
            have two : ∀ (a b : Nat) (ha : a < L.length) (hb : b < L.length), a < b →
                ([L[a], L[b]] ++ (L.eraseIdx b).eraseIdx a).Perm L := by
              intro a b ha hb hab
              have h1 := List.getElem_cons_eraseIdx_perm hb
              have ha' : a < (L.eraseIdx b).length := by rw [List.length_eraseIdx_of_lt hb]; omega
              have h2 := List.getElem_cons_eraseIdx_perm ha'
              rw [List.getElem_eraseIdx_of_lt _ hab] at h2
              refine List.Perm.trans ?_ h1
              refine (List.Perm.swap _ _ _).trans ?_
              exact h2.cons _
            rcases lt_or_gt_of_ne hne with hab | hab
            · rw [max_eq_right hab.le, min_eq_left hab.le, ← hxa, ← hyb]
              exact two a b ha hb hab
            · rw [max_eq_left hab.le, min_eq_right hab.le, ← hxa, ← hyb]
              exact (List.Perm.swap _ _ _).trans (two b a hb ha hab)
          obtain ⟨pairs, single, h1, h2, h3⟩ := ih _ _
            (((List.eraseIdx_sublist ..).trans (List.eraseIdx_sublist ..)).nodup hn) h
          refine ⟨(x, y) :: pairs, single, h1, ?_, ?_⟩
          · refine List.Perm.trans ?_ hperm
            simpa using h2
          · rw [h3, List.map_cons, List.prod_cons]
            ring
  obtain ⟨pairs, single, h1, h2, h3⟩ := key _ _ _ (List.nodup_finRange n) h
  exact ⟨pairs, single, h1, h2, by rw [h3, one_mul]⟩

/-- The hypothesis of `C59_switch_product` is met by two correlated variables. -/
example (bvn : ℝ × ℝ → ℝ × ℝ × ℝ → ℝ) (mu : Fin 2 → ℝ) :
    ∃ v, calcCdfSwitch bvn mu (!![2, 1; 1, 2] : Matrix (Fin 2) (Fin 2) ℝ) = .ok (some v) :=
  ⟨_, C59_switch_pair_partial bvn mu _ (by simp) (by simp) (by simp) (by simp; norm_num)⟩

end C59

end Lop.Props
