import Verif.Proofs.UcbLinear
import Verif.Props.SelectExact

/-! # Property C142 – `UCBLearner` with a linear model -/

namespace Lop.Props

open Lop.Spec

variable {d : Nat}

/-- C142, the greedy step: with a linear model of weights `w`, call number `t` returns an offered
candidate of highest optimistic utility under the weight vectors drawn in that call. -/
theorem C142_greedy (ordL : Nat → Finset Nat → List Nat) (hordL : ∀ t, Enumerates (ordL t))
    (pts : List (Fin d → ℝ)) (w : Fin d → ℝ) (ws : Nat → Fin 200 → Fin d → ℝ) (alpha : ℝ)
    (t : Nat) (idx prev : Finset Nat) (hne : idx.Nonempty) (hsub : idx ⊆ Finset.range pts.length) :
    ∃ i ∈ idx, (ucbModelLearner ordL (.linear ws) pts (pts.map (linUtil w)) alpha).greedy t idx prev = .ok i ∧
      ∀ j ∈ idx, ∀ x y, pts[i]? = some x → pts[j]? = some y →
        optimistic alpha w (ws t) y ≤ optimistic alpha w (ws t) x := by
  set mu := pts.map (linUtil w) with hmu
  set var := pts.map fun x => npVarVec fun s => ∑ k, x k * ws t s k with hvar
  have hl : mu.length = pts.length := by simp [hmu]
  obtain ⟨-, -, hg, -⟩ := C45_learners ordL hordL mu var (by simp [hmu, hvar]) alpha
  obtain ⟨i, hi, hgi, hmax⟩ := hg t idx prev hne (by rw [hl]; exact hsub)
  have key : ∀ (j : Nat) x, pts[j]? = some x →
      mu.getD j 0 + alpha * Real.sqrt (var.getD j 0) = optimistic alpha w (ws t) x := by
    intro j x hx
    have e : (fun s => ∑ k, x k * ws t s k) = fun s => linUtil (ws t s) x := by
      funext s
      exact Finset.sum_congr rfl fun k _ => mul_comm _ _
    simp only [hmu, hvar, List.getD_eq_getElem?_getD, List.getElem?_map, hx, Option.map_some,
      Option.getD_some, optimistic, stdDev, e]
    rw [npVarVec_eq (by norm_num)]
  refine ⟨i, hi, ?_, ?_⟩
  · simp only [ucbModelLearner, UcbModel.variance, ← hvar]
    exact hgi
  · intro j hj x y hx hy
    rw [← key i x hx, ← key j y hy]
    exact hmax j hj

/-- C142, the selection: although every call draws new weights, `select` returns a valid selection if
there are enough unselected candidates and raises otherwise. -/
theorem C142_valid (ordL : Nat → Finset Nat → List Nat) (hordL : ∀ t, Enumerates (ordL t))
    (pts : List (Fin d → ℝ)) (w : Fin d → ℝ) (ws : Nat → Fin 200 → Fin d → ℝ) (alpha : ℝ)
    (alwaysBest pairFirst : Bool) {ord : Finset Nat → List Nat} (hord : Enumerates ord)
    (numAlts : Nat) (prefer prev : Finset Nat) (hpref : prefer ⊆ Finset.range pts.length)
    (hn : 0 < numAlts) :
    (numAlts ≤ (Finset.range pts.length \ prev).card →
      ∃ sel, learnerSelect (ucbModelLearner ordL (.linear ws) pts (pts.map (linUtil w)) alpha) alwaysBest
          pairFirst none ord (pts.map (linUtil w)) numAlts prefer prev = .ok sel ∧
        ValidSelection pts.length numAlts prefer prev sel) ∧
    ((Finset.range pts.length \ prev).card < numAlts →
      learnerSelect (ucbModelLearner ordL (.linear ws) pts (pts.map (linUtil w)) alpha) alwaysBest
        pairFirst none ord (pts.map (linUtil w)) numAlts prefer prev = .error .exception) := by
  have hl : (pts.map (linUtil w)).length = pts.length := by simp
  have hL : PicksMember (pts.map (linUtil w)).length
      (ucbModelLearner ordL (.linear ws) pts (pts.map (linUtil w)) alpha) := by
    intro t idx prev hne hsub
    obtain ⟨i, hi, hg, -⟩ := C142_greedy ordL hordL pts w ws alpha t idx prev hne (hl ▸ hsub)
    exact ⟨i, hi, hg⟩
  obtain ⟨h1, h2⟩ := C44_valid_selection _ hL alwaysBest pairFirst (.inl rfl) none hord numAlts prefer prev
    (by rw [hl]; exact hpref) hn
  rw [hl] at h1 h2
  refine ⟨fun h => ?_, h2⟩
  obtain ⟨sel, h3, h4, -⟩ := h1 h
  exact ⟨sel, h3, h4⟩

/-- C142, hull: for `alpha ≥ 0` a candidate that is a convex combination of others never has a higher
optimistic utility than all of them: only corners of the candidate set can be strictly best. -/
theorem C142_hull {alpha : ℝ} (ha : 0 ≤ alpha) (w : Fin d → ℝ) {n : Nat} (hn : n ≠ 0)
    (ws : Fin n → Fin d → ℝ) {ι : Type*} (J : Finset ι) (c : ι → ℝ) (hc : ∀ i ∈ J, 0 ≤ c i)
    (h1 : ∑ i ∈ J, c i = 1) (y : ι → Fin d → ℝ) :
    ∃ i ∈ J, optimistic alpha w ws (fun k => ∑ i ∈ J, c i * y i k) ≤ optimistic alpha w ws (y i) := by
  by_contra hcon
  push Not at hcon
  have hle := optimistic_sum_le hn ha w ws J c hc y
  set T := optimistic alpha w ws (fun k => ∑ i ∈ J, c i * y i k) with hT
  have hpos : ∃ i ∈ J, 0 < c i := by
    by_contra h0
    push Not at h0
    have : ∑ i ∈ J, c i ≤ 0 := Finset.sum_nonpos h0
    linarith
  obtain ⟨i, hi, hci⟩ := hpos
  have : ∑ i ∈ J, c i * optimistic alpha w ws (y i) < ∑ i ∈ J, c i * T :=
    Finset.sum_lt_sum (fun j hj => mul_le_mul_of_nonneg_left (hcon j hj).le (hc j hj))
      ⟨i, hi, mul_lt_mul_of_pos_left (hcon i hi) hci⟩
  rw [← Finset.sum_mul, h1, one_mul] at this
  linarith

/-- C142: the optimistic utility is positively homogeneous, whatever `alpha`: stretching a candidate by a
factor stretches its optimistic utility by the same factor. -/
theorem C142_scale (alpha : ℝ) (w : Fin d → ℝ) {n : Nat} (hn : n ≠ 0) (ws : Fin n → Fin d → ℝ) {c : ℝ}
    (hc : 0 ≤ c) (x : Fin d → ℝ) :
    optimistic alpha w ws (fun k => c * x k) = c * optimistic alpha w ws x :=
  optimistic_scale hn alpha w ws hc x

/-- C142: with `alpha = 0` every call is the one of `BestLearner`, whatever the samples. -/
theorem C142_alpha_zero (ordL : Nat → Finset Nat → List Nat) (hordL : ∀ t, Enumerates (ordL t))
    (pts : List (Fin d → ℝ)) (w : Fin d → ℝ) (ws : Nat → Fin 200 → Fin d → ℝ) (t : Nat)
    (idx prev : Finset Nat) (hsub : idx ⊆ Finset.range pts.length) :
    (ucbModelLearner ordL (.linear ws) pts (pts.map (linUtil w)) 0).greedy t idx prev =
      (bestLearner ordL (pts.map (linUtil w))).greedy t idx prev := by
  have hb : ∀ i ∈ ordL t idx, i < pts.length := fun i hi => by simpa using hsub ((hordL t idx i).1 hi)
  obtain ⟨ms, hms, hml, -⟩ := gather_ok (pts.map (linUtil w)) (ordL t idx) (by simpa using hb)
  obtain ⟨vs, hvs, hvl, -⟩ := gather_ok (pts.map fun x => npVarVec fun s => ∑ k, x k * ws t s k)
    (ordL t idx) (by simpa using hb)
  have hz : List.zipWith (fun m v => m + 0 * Real.sqrt v) ms vs = ms := by
    apply List.ext_getElem
    · simp [hml, hvl]
    · intro i h1 h2; simp
  simp only [ucbModelLearner, UcbModel.variance, ucbLearner, bestLearner, hms, hvs, hz]

/-- C142: with a model that is neither a GP nor linear, `select` raises `UnboundLocalError` as soon as a
greedy choice is needed. -/
theorem C142_other (ordL : Nat → Finset Nat → List Nat) (pts : List (Fin d → ℝ)) (mu : List ℝ) (alpha : ℝ)
    (alwaysBest pairFirst : Bool) (ord : Finset Nat → List Nat) (numAlts : Nat) (prefer prev : Finset Nat)
    (hab : alwaysBest = false ∨ prev ≠ ∅) (hn : 0 < numAlts) (hav : Finset.range mu.length \ prev ≠ ∅) :
    learnerSelect (ucbModelLearner ordL .other pts mu alpha) alwaysBest pairFirst none ord mu numAlts
      prefer prev = .error .unboundLocal := by
  have hab' : ¬ (alwaysBest = true ∧ prev = ∅) := by
    rintro ⟨h1, h2⟩; rcases hab with h | h <;> simp_all
  obtain ⟨k, rfl⟩ : ∃ k, numAlts = k + 1 := ⟨numAlts - 1, by omega⟩
  simp only [learnerSelect, startSelection, if_neg hab', effAlts, selectLoop]
  by_cases hp : prefer \ prev = ∅ <;> simp [hp, hav, ucbModelLearner, UcbModel.variance]

/-- Instance of C142: candidates `1` and `-1` on a line, fitted weight 0.1, half of the sampled weights
1 and half -1: the optimistic utilities with `alpha = 2` are 2.1 and 1.9. -/
example : optimistic (n := 2) (d := 1) 2 (fun _ => 0.1) (fun s _ => if s = 0 then 1 else -1) (fun _ => 1) = 2.1 ∧
    optimistic (n := 2) (d := 1) 2 (fun _ => 0.1) (fun s _ => if s = 0 then 1 else -1) (fun _ => -1) = 1.9 := by
  constructor <;> simp [optimistic, stdDev, sampleAvg, linUtil] <;> norm_num

/-- Negative `alpha` (pessimism) is excluded from `C142_hull` for a reason: the middle of the two
candidates `1` and `-1` has the highest value. -/
theorem C142_pessimistic (alpha : ℝ) (ha : alpha < 0) :
    optimistic (n := 2) (d := 1) alpha 0 (fun s _ => if s = 0 then 1 else -1) (fun _ => 1) < 0 ∧
    optimistic (n := 2) (d := 1) alpha 0 (fun s _ => if s = 0 then 1 else -1) (fun _ => -1) < 0 ∧
    optimistic (n := 2) (d := 1) alpha 0 (fun s _ => if s = 0 then 1 else -1) (fun _ => 0) = 0 := by
  refine ⟨?_, ?_, ?_⟩ <;> simp [optimistic, stdDev, sampleAvg, linUtil, ha]

end Lop.Props
