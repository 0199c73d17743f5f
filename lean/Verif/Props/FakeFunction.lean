import Verif.Proofs.FakeFunction
import Verif.Props.Pareto
import Verif.Props.SynthUser
import Mathlib.Data.List.MinMax
import Mathlib.Data.Fin.VecNotation
import Mathlib.Algebra.Order.BigOperators.Ring.Finset
import Mathlib.Tactic.NormNum
import Mathlib.Tactic.FinCases

/-! # C61 and C69: synthetic utility functions -/

namespace Lop.Props

open Lop Lop.Spec Finset

variable {n : Nat}

section C61

/-- C61: for every draw of the weights (not all zero), `FakeLinear` is a convex combination of the
objectives; all-zero draws give no weights. -/
theorem C61_linear_convex (r : Fin (n + 1) → ℝ) (hr : ∀ k, 0 ≤ r k) :
    ((∀ k, r k = 0) → sumWeights r = none) ∧
    ((∃ k, r k ≠ 0) → ∃ w, sumWeights r = some w ∧ (∀ j k, w j * r k = w k * r j) ∧
      ∀ x, ConvexComb x (fakeLinear w x)) := by
  constructor
  · intro h
    unfold sumWeights
    rw [if_pos (sum_eq_zero fun k _ => h k)]
  · rintro ⟨k, hk⟩
    have hs : ∑ j, r j ≠ 0 := (sum_pos' (fun j _ => hr j)
      ⟨k, mem_univ _, lt_of_le_of_ne (hr k) (Ne.symm hk)⟩).ne'
    have hw : sumWeights r = some fun k => r k / ∑ j, r j := if_neg hs
    refine ⟨_, hw, fun j k => by ring, fun x => ?_⟩
    obtain ⟨h1, h2⟩ := sumWeights_spec hr hw
    exact ⟨_, h1, h2, sum_congr rfl fun k _ => mul_comm _ _⟩

/-- Hence `FakeLinear` lies between the smallest and the largest objective. -/
theorem C61_linear_bounds (r w x : Fin (n + 1) → ℝ) (hr : ∀ k, 0 ≤ r k) (hw : sumWeights r = some w)
    (lo hi : ℝ) (hlo : ∀ k, lo ≤ x k) (hhi : ∀ k, x k ≤ hi) : lo ≤ fakeLinear w x ∧ fakeLinear w x ≤ hi := by
  obtain ⟨h1, h2⟩ := sumWeights_spec hr hw
  unfold fakeLinear
  constructor
  · calc lo = ∑ k, lo * w k := by rw [← mul_sum, h2, mul_one]
      _ ≤ _ := sum_le_sum fun k _ => mul_le_mul_of_nonneg_right (hlo k) (h1 k)
  · calc _ ≤ ∑ k, hi * w k := sum_le_sum fun k _ => mul_le_mul_of_nonneg_right (hhi k) (h1 k)
      _ = hi := by rw [← mul_sum, h2, mul_one]

/-- C61: `FakeLinear` is non-decreasing in every objective. -/
theorem C61_linear_mono (r w : Fin (n + 1) → ℝ) (hr : ∀ k, 0 ≤ r k) (hw : sumWeights r = some w) :
    MonotoneOn' Set.univ (fakeLinear w) := by
  intro a _ b _ h
  exact sum_le_sum fun k _ => mul_le_mul_of_nonneg_right (h k) ((sumWeights_spec hr hw).1 k)

/-- C61: `FakeWeightedMax` and `FakeWeightedMin` are non-decreasing in every objective; some objective has
weight one and all weights lie in [0,1]. -/
theorem C61_max_min_mono (r w : Fin (n + 1) → ℝ) (hr : ∀ k, 0 ≤ r k) (hw : maxWeights r = some w) :
    (∀ k, 0 ≤ w k ∧ w k ≤ 1) ∧ (∃ k, w k = 1) ∧
    MonotoneOn' Set.univ (fakeMax w) ∧ MonotoneOn' Set.univ (fakeMin w) := by
  obtain ⟨h1, h2⟩ := maxWeights_spec hr hw
  refine ⟨h1, h2, ?_, ?_⟩
  · intro a _ b _ h
    unfold fakeMax
    split
    · exact h 0
    · exact vecMax_mono fun k => mul_le_mul_of_nonneg_right (h k) (h1 k).1
  · intro a _ b _ h
    unfold fakeMin
    split
    · exact h 0
    · exact vecMin_mono fun k => mul_le_mul_of_nonneg_right (h k) (h1 k).1

/-- C61: `FakeLogistic` takes values strictly between 0 and 1 and is non-decreasing in every objective, for
every draw of its parameters. -/
theorem C61_logistic (r : Fin (n + 1) → ℝ) (q m s : ℝ) (hr : ∀ k, 0 ≤ r k) (hs : 0 ≤ s) :
    (∀ x, 0 < fakeLogistic (logisticRandomize r q m s) x ∧ fakeLogistic (logisticRandomize r q m s) x < 1) ∧
    MonotoneOn' Set.univ (fakeLogistic (logisticRandomize r q m s)) := by
  have hQ : 0 < (q * 2) ^ 2 + 1.2 := by positivity
  have hv : 0 < s + 2 := by linarith
  have hw : ∀ k, 0 ≤ r k * 1.5 := fun k => mul_nonneg (hr k) (by norm_num)
  constructor
  · intro x
    unfold fakeLogistic logisticRandomize
    simp only [sub_zero, zero_add]
    generalize (if n = 0 then _ else _ : ℝ) = wx
    have hp : 0 < Real.exp (-wx) ^ (1 / (s + 2)) := Real.rpow_pos_of_pos (Real.exp_pos _) _
    have := mul_pos hQ hp
    constructor
    · positivity
    · rw [div_lt_one (by positivity)]
      linarith
  · intro a _ b _ h
    unfold fakeLogistic logisticRandomize
    simp only [sub_zero, zero_add]
    have hwx : (if n = 0 then a 0 * (r 0 * 1.5) else (∑ k, a k * (r k * 1.5)) - m * 1.5) ≤
        (if n = 0 then b 0 * (r 0 * 1.5) else (∑ k, b k * (r k * 1.5)) - m * 1.5) := by
      split
      · exact mul_le_mul_of_nonneg_right (h 0) (hw 0)
      · exact sub_le_sub_right (sum_le_sum fun k _ => mul_le_mul_of_nonneg_right (h k) (hw k)) _
    revert hwx
    generalize (if n = 0 then a 0 * (r 0 * 1.5) else (∑ k, a k * (r k * 1.5)) - m * 1.5) = wa
    generalize (if n = 0 then b 0 * (r 0 * 1.5) else (∑ k, b k * (r k * 1.5)) - m * 1.5) = wb
    intro hwx
    have h1 : Real.exp (-wb) ^ (1 / (s + 2)) ≤ Real.exp (-wa) ^ (1 / (s + 2)) :=
      Real.rpow_le_rpow (Real.exp_pos _).le (Real.exp_le_exp.2 (by linarith)) (by positivity)
    have hp : 0 < Real.exp (-wb) ^ (1 / (s + 2)) := Real.rpow_pos_of_pos (Real.exp_pos _) _
    have := mul_pos hQ hp
    exact one_div_le_one_div_of_le (by positivity) (by
      have := mul_le_mul_of_nonneg_left h1 hQ.le
      linarith)

/-- C61: `FakeSquared` is non-decreasing on non-negative objectives. -/
theorem C61_squared_mono (r w : Fin (n + 1) → ℝ) (hr : ∀ k, 0 ≤ r k) (hw : sumWeights r = some w) :
    MonotoneOn' {x | ∀ k, 0 ≤ x k} (fakeSquared w) := by
  intro a ha b _ h
  exact sum_le_sum fun k _ => mul_le_mul_of_nonneg_right
    (mul_le_mul (h k) (h k) (ha k) ((ha k).trans (h k))) ((sumWeights_spec hr hw).1 k)

/-- Non-negativity is needed: raising an objective from -1 to 0 lowers `FakeSquared`. -/
example : fakeSquared (n := 1) (fun _ => 1 / 2) (fun _ => 0) < fakeSquared (n := 1) (fun _ => 1 / 2) (fun _ => -1) := by
  simp [fakeSquared]

/-- C61: `FakeSquaredMinMax` on non-negative objectives: the matrix form always has a value and is
non-decreasing, and so is the single-vector form. -/
theorem C61_sq_min_max_mono (r w : Fin (n + 1) → ℝ) (hr : ∀ k, 0 ≤ r k) (hw : sumWeights r = some w) :
    (∃ g : (Fin (n + 1) → ℝ) → ℝ, (∀ x, (∀ k, 0 ≤ x k) → fakeSqMinMaxBatch w x = some (g x)) ∧
      MonotoneOn' {x | ∀ k, 0 ≤ x k} g) ∧ MonotoneOn' Set.univ (fakeSqMinMaxRow w) := by
  obtain ⟨h1, -⟩ := sumWeights_spec hr hw
  constructor
  · refine ⟨fun x => if n = 0 then x 0 else Real.sqrt (vecMax fun k => x k * w k) +
      (vecMin fun k => x k * w k) * vecMin fun k => x k * w k, fun x hx => ?_, ?_⟩
    · unfold fakeSqMinMaxBatch
      by_cases hn : n = 0
      · simp [hn]
      · simp only [if_neg hn]
        rw [if_neg]
        exact not_lt.2 ((mul_nonneg (hx 0) (h1 0)).trans (le_vecMax (fun k => x k * w k) 0))
    · intro a ha b _ h
      simp only
      split
      · exact h 0
      · have hm : ∀ k, a k * w k ≤ b k * w k := fun k => mul_le_mul_of_nonneg_right (h k) (h1 k)
        have h0 : 0 ≤ vecMin fun k => a k * w k := le_vecMin fun k => mul_nonneg (ha k) (h1 k)
        exact add_le_add (Real.sqrt_le_sqrt (vecMax_mono hm))
          (mul_le_mul (vecMin_mono hm) (vecMin_mono hm) h0 (h0.trans (vecMin_mono hm)))
  · intro a _ b _ h
    unfold fakeSqMinMaxRow
    split
    · exact h 0
    · exact vecMax_mono fun k => mul_le_mul_of_nonneg_right (h k) (h1 k)

/-- C61: `FakeMinLog` with mixing weight in [0,1] is non-decreasing. -/
theorem C61_minlog_mono (alpha : ℝ) (ha0 : 0 ≤ alpha) (ha1 : alpha ≤ 1) (r w rl : Fin (n + 1) → ℝ)
    (hr : ∀ k, 0 ≤ r k) (hw : maxWeights r = some w) (q m s : ℝ) (hrl : ∀ k, 0 ≤ rl k) (hs : 0 ≤ s) :
    MonotoneOn' Set.univ (fakeMinLog alpha w (logisticRandomize rl q m s)) := by
  intro a ha b hb h
  exact add_le_add (mul_le_mul_of_nonneg_left ((C61_max_min_mono r w hr hw).2.2.2 a ha b hb h) ha0)
    (mul_le_mul_of_nonneg_left ((C61_logistic rl q m s hrl hs).2 a ha b hb h) (by linarith))

/-- C61: `FakeMinLog` with mixing weight in [0,1] lies between its two parts. -/
theorem C61_minlog_between (alpha : ℝ) (ha0 : 0 ≤ alpha) (ha1 : alpha ≤ 1) (w : Fin (n + 1) → ℝ)
    (p : LogisticParams n) (x : Fin (n + 1) → ℝ) :
    min (fakeMin w x) (fakeLogistic p x) ≤ fakeMinLog alpha w p x ∧
      fakeMinLog alpha w p x ≤ max (fakeMin w x) (fakeLogistic p x) := by
  have hb : 0 ≤ 1 - alpha := by linarith
  have h1 := mul_le_mul_of_nonneg_left (min_le_left (fakeMin w x) (fakeLogistic p x)) ha0
  have h2 := mul_le_mul_of_nonneg_left (min_le_right (fakeMin w x) (fakeLogistic p x)) hb
  have h3 := mul_le_mul_of_nonneg_left (le_max_left (fakeMin w x) (fakeLogistic p x)) ha0
  have h4 := mul_le_mul_of_nonneg_left (le_max_right (fakeMin w x) (fakeLogistic p x)) hb
  unfold fakeMinLog
  constructor <;> linarith

/-- C61 refuted for `FakeIntegrate`: the value depends neither on the integrated function nor on any objective but
the first, so improving another objective never raises it. -/
theorem C61_integrate_false (vals vals' : List (List ℝ)) (x y : Fin (n + 1) → ℝ) (h : x 0 = y 0) :
    fakeIntegrate vals x = fakeIntegrate vals' y := h

/-- Two points which differ in the second objective only. -/
example : (fun k : Fin 2 => if k = 0 then (1 : ℝ) else 5) 0 = (fun _ : Fin 2 => (1 : ℝ)) 0 := by simp

/-- Monotone on the whole space: the maximum over the candidates is attained on the Pareto front. -/
theorem attains_on_front {S : Set (Fin (n + 1) → ℝ)} {f : (Fin (n + 1) → ℝ) → ℝ} (hf : MonotoneOn' S f)
    (vals : List (Fin (n + 1) → ℝ)) (hne : vals ≠ []) (hS : ∀ v ∈ vals, v ∈ S) :
    ∃ i ∈ getPareto vals, ∃ w, vals[i]? = some w ∧ ∀ v ∈ vals, f v ≤ f w := by
  obtain ⟨m, hm, hmax⟩ : ∃ m ∈ vals, ∀ v ∈ vals, f v ≤ f m := by
    obtain ⟨b, x, -, hb, h, -⟩ := (C60_perfect_choice f vals).2 hne
    exact ⟨x, List.mem_of_getElem? hb, h⟩
  obtain ⟨i, hi, w, hw, hdom⟩ := C06_discarded_points_are_dominated vals m hm
  exact ⟨i, hi, w, hw, fun v hv => (hmax v hv).trans (hf m (hS m hm) w (hS w (List.mem_of_getElem? hw)) hdom)⟩

/-- C61: each of these utilities attains its maximum over any non-empty candidate list on the points
returned by `get_pareto` (the squared ones for non-negative candidates). -/
theorem C61_pareto (vals : List (Fin (n + 1) → ℝ)) (hne : vals ≠ []) (r rl ws wm : Fin (n + 1) → ℝ) (q m s : ℝ)
    (hr : ∀ k, 0 ≤ r k) (hrl : ∀ k, 0 ≤ rl k) (hs : 0 ≤ s) (hws : sumWeights r = some ws)
    (hwm : maxWeights r = some wm) :
    (∀ f ∈ [fakeLinear ws, fakeMax wm, fakeMin wm, fakeLogistic (logisticRandomize rl q m s),
        fakeSqMinMaxRow ws],
      ∃ i ∈ getPareto vals, ∃ w, vals[i]? = some w ∧ ∀ v ∈ vals, f v ≤ f w) ∧
    ((∀ v ∈ vals, ∀ k, 0 ≤ v k) →
      (∃ i ∈ getPareto vals, ∃ w, vals[i]? = some w ∧ ∀ v ∈ vals, fakeSquared ws v ≤ fakeSquared ws w) ∧
      ∃ i ∈ getPareto vals, ∃ w y, vals[i]? = some w ∧ fakeSqMinMaxBatch ws w = some y ∧
        ∀ v ∈ vals, ∃ yv ≤ y, fakeSqMinMaxBatch ws v = some yv) := by
  constructor
  · intro f hf
    refine attains_on_front (S := Set.univ) ?_ vals hne fun _ _ => trivial
    simp only [List.mem_cons, List.not_mem_nil, or_false] at hf
    rcases hf with rfl | rfl | rfl | rfl | rfl
    · exact C61_linear_mono r ws hr hws
    · exact (C61_max_min_mono r wm hr hwm).2.2.1
    · exact (C61_max_min_mono r wm hr hwm).2.2.2
    · exact (C61_logistic rl q m s hrl hs).2
    · exact (C61_sq_min_max_mono r ws hr hws).2
  · intro hnn
    refine ⟨attains_on_front (C61_squared_mono r ws hr hws) vals hne hnn, ?_⟩
    obtain ⟨g, h1, h2⟩ := (C61_sq_min_max_mono r ws hr hws).1
    obtain ⟨i, hi, w, hw, hmax⟩ := attains_on_front h2 vals hne hnn
    exact ⟨i, hi, w, g w, hw, h1 w (hnn w (List.mem_of_getElem? hw)), fun v hv =>
      ⟨g v, hmax v hv, h1 v (hnn v hv)⟩⟩

/-- Weights that can be drawn. -/
example : ∃ ws wm, sumWeights (n := 1) ![1 / 2, 1 / 4] = some ws ∧ maxWeights (n := 1) ![1 / 2, 1 / 4] = some wm := by
  refine ⟨_, _, if_neg ?_, if_neg ?_⟩
  · rw [Fin.sum_univ_two]
    norm_num
  · have := le_vecMax (fun k => |(![1 / 2, 1 / 4] : Fin 2 → ℝ) k|) 0
    intro h
    rw [h] at this
    norm_num at this

end C61

section C69

/-- C69 refuted: in two or more dimensions `FakeSquaredMinMax` is another function on a single vector than on
a matrix of vectors, and the two even order points differently: a `PerfectUser` with it chooses one path
(matrix form) and rates the other one higher (single-vector form). -/
theorem C69_sq_min_max_counterexample :
    ∃ a b : Fin 2 → ℝ, (∀ k, 0 ≤ a k ∧ 0 ≤ b k) ∧ ∃ ya yb,
      fakeSqMinMaxBatch (n := 1) (fun _ => 1 / 2) a = some ya ∧
      fakeSqMinMaxBatch (n := 1) (fun _ => 1 / 2) b = some yb ∧ ya < yb ∧
      fakeSqMinMaxRow (n := 1) (fun _ => 1 / 2) b < fakeSqMinMaxRow (n := 1) (fun _ => 1 / 2) a := by
  have hmax : ∀ x : Fin 2 → ℝ, vecMax (n := 1) x = max (x 0) (x 1) := by
    intro x
    apply le_antisymm
    · refine vecMax_le fun k => ?_
      fin_cases k
      · exact le_max_left _ _
      · exact le_max_right _ _
    · exact max_le (le_vecMax x 0) (le_vecMax x 1)
  have hmin : ∀ x : Fin 2 → ℝ, vecMin (n := 1) x = min (x 0) (x 1) := by
    intro x
    apply le_antisymm
    · exact le_min (vecMin_le x 0) (vecMin_le x 1)
    · refine le_vecMin fun k => ?_
      fin_cases k
      · exact min_le_left _ _
      · exact min_le_right _ _
  have hs : Real.sqrt (81 / 100) = 9 / 10 := by
    rw [show (81 / 100 : ℝ) = (9 / 10) ^ 2 by norm_num, Real.sqrt_sq (by norm_num)]
  refine ⟨fun k => if k = 0 then 2 else 0, fun _ => 162 / 100, fun k => ⟨by fin_cases k <;> norm_num, by norm_num⟩,
    1, 9 / 10 + 81 / 100 * (81 / 100), ?_, ?_, by norm_num, ?_⟩
  · unfold fakeSqMinMaxBatch
    rw [if_neg one_ne_zero, hmax, hmin]
    norm_num
  · unfold fakeSqMinMaxBatch
    rw [if_neg one_ne_zero, hmax, hmin]
    norm_num [hs]
  · unfold fakeSqMinMaxRow
    rw [if_neg one_ne_zero, if_neg one_ne_zero, hmax, hmax]
    norm_num

/-- C69, what holds: for a utility evaluated row by row (all others in two or more dimensions) the item a
`PerfectUser` chooses is one it rates highest. -/
theorem C69_choice_rated_highest_partial {X : Type*} (f : X → ℝ) (query : List X) (hq : query ≠ []) :
    ∃ b x, perfectChoose f query = .ok b ∧ query[b]? = some x ∧
      ∀ y ∈ query, perfectRate f y ≤ perfectRate f x := by
  obtain ⟨b, x, h1, h2, h3, -⟩ := (C60_perfect_choice f query).2 hq
  exact ⟨b, x, h1, h2, fun y hy => by
    rw [← not_lt, C60_perfect_rating_order, not_lt]
    exact h3 y hy⟩

/-- C69 refuted in dimension one: for a Python list `FakeWeightedMax` returns a single number, an upper bound
of all values, where it returns one value per reward for an array. -/
theorem C69_list_counterexample (xs : List ℝ) (hx : xs ≠ []) :
    ∃ m ∈ xs, fakeMaxList 1 xs = .ok m ∧ (∀ x ∈ xs, x ≤ m) ∧
      (fakeMaxArray xs).length = xs.length := by
  obtain ⟨x, l, rfl⟩ := List.exists_cons_of_ne_nil hx
  obtain ⟨-, h1, h2⟩ := foldl_min_max_spec l x
  refine ⟨_, h1, ?_, fun y hy => (h2 y hy).2, rfl⟩
  simp [fakeMaxList]

/-- C69: in dimension one the random weight of `FakeWeightedMax` is 1, whatever positive number was drawn, so that the
weight of `C69_list_counterexample` is the one that occurs. -/
theorem C69_single_weight (r : ℝ) (h : 0 < r) :
    maxWeights (n := 0) (fun _ => r) = some (fun _ => 1) ∧ sumWeights (n := 0) (fun _ => r) = some (fun _ => 1) := by
  constructor
  · cases hw : maxWeights (n := 0) (fun _ => r) with
    | none =>
      exfalso
      revert hw
      unfold maxWeights
      rw [if_neg]
      · simp
      · intro h0
        simp only [vecMax] at h0
        simp at h0
        linarith
    | some w =>
      obtain ⟨-, k, hk⟩ := maxWeights_spec (fun _ => h.le) hw
      congr 1
      funext j
      rw [show j = k from Fin.ext (by omega), hk]
  · unfold sumWeights
    rw [if_neg (by simp; linarith)]
    congr 1
    funext k
    simp [h.ne']

end C69

end Lop.Props
