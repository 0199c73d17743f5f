import Verif.Proofs.Training
import Verif.Proofs.FoldEmpty
import Mathlib.Algebra.Order.Floor.Semiring
import Mathlib.Data.Rat.Floor
import Mathlib.Tactic.FieldSimp
import Mathlib.Tactic.Positivity
import Mathlib.Tactic.Ring
import Mathlib.Tactic.NormNum

/-! # C07, C08, C09, C10: data splitting and normalisation -/

namespace Lop.Props

open Lop Lop.Spec

/-! ## C07 -/

/-- C07: for every `N`, every `k ≥ 1`, every pair graph on the points and every random stream,
`k_fold_x_y` either returns nothing (exactly when fewer than two folds of two points are possible
and more were asked for) or folds that partition the points, are strictly increasing, and have at
most `⌈N/k'⌉` members, `k' = min k (N/2)`.  No exception is raised. -/
theorem C07_k_fold_partition (rng : FoldRng) (hr : rng.Valid) (N k : Nat) (hk : 1 ≤ k)
    (pairs : Option (List Pair)) (hp : ∀ ps, pairs = some ps → ∀ p ∈ ps, p.u < N ∧ p.v < N) :
    (N / 2 < k ∧ N / 2 < 2 → kFold rng N pairs k = .ok none) ∧
    (¬ (N / 2 < k ∧ N / 2 < 2) → ∃ folds, kFold rng N pairs k = .ok (some folds) ∧
      folds.length = min k (N / 2) ∧ IsPartition folds N ∧
      (∀ s ∈ folds, s.Pairwise (· < ·)) ∧
      (∀ s ∈ folds, s.length ≤ ⌈(N : ℚ) / (min k (N / 2) : Nat)⌉₊)) := by
  constructor
  · rintro ⟨h1, h2⟩
    unfold kFold
    simp [h1, h2]
  · intro hn
    have hk' : (if k > N / 2 then N / 2 else k) = min k (N / 2) := by
      split <;> omega
    have hpos : 0 < min k (N / 2) := by omega
    have hp' : ∀ p ∈ pairs.getD [], p.u < N ∧ p.v < N := by
      cases pairs with
      | none => simp
      | some ps => simpa using hp ps rfl
    have hany : (pairs.getD []).any (fun p => p.u ≥ N ∨ p.v ≥ N) = false := by
      rw [List.any_eq_false]
      intro p hpm
      have := hp' p hpm
      simp
      omega
    set k' := min k (N / 2) with hk'def
    have hinv0 : FoldInv N k' ((N + k' - 1) / k') (List.replicate k' []) [] (List.range N) := by
      refine ⟨by simp, by simp, by simp, ?_⟩
      intro s hs
      rw [List.eq_of_mem_replicate hs]
      simp
    obtain ⟨res, hres, sel', hinv⟩ := foldLoop_spec rng hr (pairs.getD []) N k' ((N + k' - 1) / k')
      hp' hpos (ceilDiv_mul N k' hpos) N 0 _ _ _ (by simp) hinv0
    refine ⟨res.map fun s => s.insertionSort (· ≤ ·), ?_, ?_, ?_, ?_, ?_⟩
    · unfold kFold
      simp only [hk', hany]
      rw [if_neg (by omega), if_neg (by omega)]
      simp [hres, bind, Except.bind, pure, Except.pure]
    · simpa using hinv.num
    · refine (map_sort_flatten_perm res).trans ?_
      simpa using hinv.part
    · intro s hs
      obtain ⟨s', hs', rfl⟩ := List.mem_map.mp hs
      have hsorted : (s'.insertionSort (· ≤ ·)).Pairwise (· ≤ ·) := List.pairwise_insertionSort _ _
      have hnd : (s'.insertionSort (· ≤ ·)).Nodup := by
        rw [(List.perm_insertionSort _ _).nodup_iff]
        have : res.flatten.Nodup := by
          have := hinv.part.nodup_iff.mpr List.nodup_range
          simpa using this
        exact (List.nodup_flatten.mp this).1 s' hs'
      refine (hsorted.and hnd).imp ?_
      rintro a b ⟨h1, h2⟩
      omega
    · intro s hs
      obtain ⟨s', hs', rfl⟩ := List.mem_map.mp hs
      rw [List.length_insertionSort]
      refine (hinv.size s' hs').trans ?_
      have hc := Nat.le_ceil ((N : ℚ) / (k' : Nat))
      rw [div_le_iff₀ (by exact_mod_cast hpos)] at hc
      have hc' : N ≤ ⌈(N : ℚ) / (k' : Nat)⌉₊ * k' := by exact_mod_cast hc
      rw [Nat.div_le_iff_le_mul_add_pred hpos]
      rw [Nat.mul_comm] at hc'
      omega

/-- C07 (error branches): asking for zero folds is a `ZeroDivisionError`; a pair naming a
non-existing point is an `IndexError`. -/
theorem C07_k_fold_errors (rng : FoldRng) (N : Nat) (pairs : Option (List Pair)) :
    kFold rng N pairs 0 = .error .zeroDivision ∧
    ∀ k ps, pairs = some ps → 1 ≤ k → ¬ (N / 2 < k ∧ N / 2 < 2) →
      (∃ p ∈ ps, N ≤ p.u ∨ N ≤ p.v) → kFold rng N pairs k = .error .indexError := by
  constructor
  · simp [kFold]
  · rintro k ps rfl hk hn ⟨p, hp, hpr⟩
    unfold kFold
    have hany : ((some ps).getD []).any (fun p => p.u ≥ N ∨ p.v ≥ N) = true := by
      rw [List.any_eq_true]
      exact ⟨p, by simpa using hp, by simpa using hpr⟩
    have h0 : ¬ (if k > N / 2 then N / 2 else k) = 0 := by split <;> omega
    have h1 : ¬ (k > N / 2 ∧ (if k > N / 2 then N / 2 else k) < 2) := by
      rintro ⟨a, b⟩
      rw [if_pos a] at b
      exact hn ⟨a, b⟩
    simp only [hany]
    rw [if_neg h1, if_neg h0]
    rfl

/-- The always-first / identity oracle satisfies the contract of the random functions. -/
def firstRng : FoldRng := ⟨fun _ _ => 0, fun _ l => l⟩

theorem firstRng_valid : firstRng.Valid := ⟨fun _ _ h => h, fun _ _ => List.Perm.refl _⟩

example : kFold firstRng 6 (some [⟨-1, 0, 4⟩, ⟨1, 4, 2⟩]) 3 = .ok (some [[0, 4], [1, 3], [2, 5]]) := by
  decide +kernel
example : kFold firstRng 3 none 4 = .ok none := by decide +kernel

/-! ## C08 -/

/-- C08 is violated: nine points that are all compared with each other, split four ways (the split
`PreferenceGP.optimize` asks for), give an empty fourth fold. -/
theorem C08_empty_fold_counterexample :
    ∃ (rng : FoldRng) (pairs : List Pair) (folds : List (List Nat)), rng.Valid ∧
      (∀ p ∈ pairs, p.u < 9 ∧ p.v < 9) ∧ kFold rng 9 (some pairs) 4 = .ok (some folds) ∧ [] ∈ folds := by
  refine ⟨firstRng, (List.range 9).flatMap fun i => (List.range i).map fun j => ⟨-1, i, j⟩,
    [[0, 1, 2], [3, 4, 5], [6, 7, 8], []], firstRng_valid, ?_, ?_, by simp⟩
  · decide +kernel
  · decide +kernel

/-- C08, what holds: if `(k'-1)·⌈N/k'⌉ < N` (for example whenever `k'` divides `N`), no fold is
empty, for every graph and random stream.  Missing: the other values of `N` and `k`, for which
the claim fails (`C08_complete_graph_false`). -/
theorem C08_folds_nonempty_partial (rng : FoldRng) (hr : rng.Valid) (N k : Nat) (hk : 1 ≤ k)
    (pairs : Option (List Pair)) (hp : ∀ ps, pairs = some ps → ∀ p ∈ ps, p.u < N ∧ p.v < N)
    (hbal : (min k (N / 2) - 1) * ⌈(N : ℚ) / (min k (N / 2) : Nat)⌉₊ < N)
    (folds : List (List Nat)) (h : kFold rng N pairs k = .ok (some folds)) : ∀ s ∈ folds, s ≠ [] := by
  obtain ⟨c1, c2⟩ := C07_k_fold_partition rng hr N k hk pairs hp
  by_cases hn : N / 2 < k ∧ N / 2 < 2
  · rw [c1 hn] at h; simp at h
  obtain ⟨folds', h1, hlen, hpart, -, hsize⟩ := c2 hn
  rw [h1] at h
  simp only [Except.ok.injEq, Option.some.injEq] at h
  subst h
  rintro s hs rfl
  have hl := hpart.length_eq
  rw [List.length_flatten, List.length_range] at hl
  obtain ⟨l1, l2, rfl⟩ := List.append_of_mem hs
  set M := ⌈(N : ℚ) / (min k (N / 2) : Nat)⌉₊ with hM
  have hb : ∀ l : List (List Nat), (∀ s ∈ l, s.length ≤ M) → (l.map List.length).sum ≤ l.length * M := by
    intro l hl
    have := List.sum_le_card_nsmul (l.map List.length) M (by
      intro x hx
      obtain ⟨t, ht, rfl⟩ := List.mem_map.mp hx
      exact hl t ht)
    simpa using this
  have b1 := hb l1 fun s hs => hsize s (by simp [hs])
  have b2 := hb l2 fun s hs => hsize s (by simp [hs])
  simp only [List.map_append, List.map_cons, List.length_nil, List.sum_append, List.sum_cons, zero_add] at hl
  simp only [List.length_append, List.length_cons] at hlen
  have : min k (N / 2) - 1 = l1.length + l2.length := by omega
  rw [this, Nat.add_mul] at hbal
  omega

example : (min 4 (12 / 2) - 1) * ⌈((12 : Nat) : ℚ) / (min 4 (12 / 2) : Nat)⌉₊ < 12 := by norm_num

/-- The number of points a fold may have, as the code computes it. -/
private theorem ceil_eq_div (N k : Nat) (hk : 0 < k) : ⌈(N : ℚ) / (k : Nat)⌉₊ = (N + k - 1) / k := by
  have hkq : (0 : ℚ) < k := by exact_mod_cast hk
  apply le_antisymm
  · rw [Nat.ceil_le, div_le_iff₀ hkq]
    have := ceilDiv_mul N k hk
    rw [Nat.mul_comm] at this
    exact_mod_cast this
  · have hc := Nat.le_ceil ((N : ℚ) / (k : Nat))
    rw [div_le_iff₀ hkq] at hc
    have hc' : N ≤ ⌈(N : ℚ) / (k : Nat)⌉₊ * k := by exact_mod_cast hc
    rw [Nat.div_le_iff_le_mul_add_pred hk]
    rw [Nat.mul_comm] at hc'
    omega

/-- C08 is violated for every `N` and `k` with `N ≤ (k'-1)·⌈N/k'⌉`: when all points are compared with each
other, every random stream leaves a fold empty. -/
theorem C08_complete_graph_false (rng : FoldRng) (hr : rng.Valid) (N k : Nat) (hk : 1 ≤ k)
    (hn : ¬ (N / 2 < k ∧ N / 2 < 2)) (ps : List Pair) (hp : ∀ p ∈ ps, p.u < N ∧ p.v < N)
    (hcomp : ∀ i j, i < N → j < N → i ≠ j → ∃ p ∈ ps, (p.u = i ∧ p.v = j) ∨ (p.u = j ∧ p.v = i))
    (hbal : N ≤ (min k (N / 2) - 1) * ⌈(N : ℚ) / (min k (N / 2) : Nat)⌉₊) :
    ∃ folds, kFold rng N (some ps) k = .ok (some folds) ∧ [] ∈ folds := by
  have hk' : (if k > N / 2 then N / 2 else k) = min k (N / 2) := by
    split <;> omega
  have hpos : 0 < min k (N / 2) := by omega
  have hNpos : 0 < N := by omega
  have hany : ((some ps).getD []).any (fun p => p.u ≥ N ∨ p.v ≥ N) = false := by
    rw [List.any_eq_false]
    intro p hpm
    have := hp p (by simpa using hpm)
    simp
    omega
  rw [ceil_eq_div N _ hpos] at hbal
  set k' := min k (N / 2) with hk'def
  have hm : 0 < (N + k' - 1) / k' := Nat.div_pos (by omega) hpos
  have hinv0 : FoldInv N k' ((N + k' - 1) / k') (List.replicate k' []) [] (List.range N) := by
    refine ⟨by simp, by simp, by simp, ?_⟩
    intro s hs
    rw [List.eq_of_mem_replicate hs]
    simp
  obtain ⟨res, hres, hmem⟩ := foldLoop_empty rng hr ps N k' ((N + k' - 1) / k') hp hcomp hm hpos
    (ceilDiv_mul N k' hpos) hbal N 0 _ _ _ (by simp) hinv0 (by simpa using Nat.succ_le_of_lt hpos) (Or.inr (by simp))
  refine ⟨res.map fun s => s.insertionSort (· ≤ ·), ?_, ?_⟩
  · unfold kFold
    simp only [hk', hany]
    rw [if_neg (by omega), if_neg (by omega)]
    simp [hres, bind, Except.bind, pure, Except.pure]
  · exact List.mem_map.mpr ⟨[], hmem, by simp⟩

/-- C08: precisely for which numbers of points and folds an empty fold can occur. -/
theorem C08_exact (N k : Nat) (hk : 1 ≤ k) (hn : ¬ (N / 2 < k ∧ N / 2 < 2)) :
    (∃ (rng : FoldRng) (ps : List Pair) (folds : List (List Nat)), rng.Valid ∧ (∀ p ∈ ps, p.u < N ∧ p.v < N) ∧
      kFold rng N (some ps) k = .ok (some folds) ∧ [] ∈ folds) ↔
    N ≤ (min k (N / 2) - 1) * ⌈(N : ℚ) / (min k (N / 2) : Nat)⌉₊ := by
  constructor
  · rintro ⟨rng, ps, folds, hr, hp, h, hmem⟩
    by_contra hc
    push Not at hc
    exact C08_folds_nonempty_partial rng hr N k hk (some ps) (by simpa using hp) hc folds h [] hmem rfl
  · intro hbal
    let ps : List Pair := (List.range N).flatMap fun i => (List.range N).map fun j => ⟨-1, i, j⟩
    have hp : ∀ p ∈ ps, p.u < N ∧ p.v < N := by
      intro p hp
      obtain ⟨i, hi, hp⟩ := List.mem_flatMap.mp hp
      obtain ⟨j, hj, rfl⟩ := List.mem_map.mp hp
      exact ⟨List.mem_range.mp hi, List.mem_range.mp hj⟩
    obtain ⟨folds, h, hmem⟩ := C08_complete_graph_false firstRng firstRng_valid N k hk hn ps hp (by
      intro i j hi hj _
      refine ⟨⟨-1, i, j⟩, ?_, Or.inl ⟨rfl, rfl⟩⟩
      exact List.mem_flatMap.mpr ⟨i, List.mem_range.mpr hi, List.mem_map.mpr ⟨j, List.mem_range.mpr hj, rfl⟩⟩) hbal
    exact ⟨firstRng, ps, folds, firstRng_valid, hp, h, hmem⟩

/-- The split of `PreferenceGP.optimize` (four folds) of nine points, and of two hundred points into twenty-four. -/
example : 9 ≤ (min 4 (9 / 2) - 1) * ⌈((9 : Nat) : ℚ) / (min 4 (9 / 2) : Nat)⌉₊ ∧ ¬ (9 / 2 < 4 ∧ 9 / 2 < 2) := by
  rw [ceil_eq_div 9 _ (by norm_num)]
  norm_num
example : 200 ≤ (min 24 (200 / 2) - 1) * ⌈((200 : Nat) : ℚ) / (min 24 (200 / 2) : Nat)⌉₊ := by
  rw [ceil_eq_div 200 _ (by norm_num)]
  norm_num

/-! ## C09 -/

/-- C09: with `sub = X[idxs]` (all indices valid), the restricted labels state about `sub` exactly
the facts that the original labels about points in `idxs` state about `X`, in order, for
preference pairs, ordinal and absolute ratings. -/
theorem C09_restriction_keeps_facts {P α : Type*} (X : List P) (y : Labels α) (indicies : List Nat)
    (sub : List P) (hsub : indicies.mapM (fun i => X[i]?) = some sub) :
    pairFacts sub (getYWithIdx y indicies).rel
        = pairFacts X (y.rel.map fun ps => ps.filter fun p => p.u ∈ indicies ∧ p.v ∈ indicies) ∧
    ratingFacts sub (getYWithIdx y indicies).ord
        = ratingFacts X (y.ord.map fun rs => rs.filter fun r => r.2 ∈ indicies) ∧
    ratingFacts sub (getYWithIdx y indicies).abs
        = ratingFacts X (y.abs.map fun rs => rs.filter fun r => r.2 ∈ indicies) := by
  unfold getYWithIdx
  refine ⟨?_, ?_, ?_⟩
  · cases y.rel with
    | none => rfl
    | some ps => exact restrict_pairs_facts X indicies sub hsub ps
  · cases y.ord with
    | none => rfl
    | some rs => exact restrict_ratings_facts X indicies sub hsub rs
  · cases y.abs with
    | none => rfl
    | some rs => exact restrict_ratings_facts X indicies sub hsub rs

/-- C09: every index in the restricted labels is a valid position of `X[idxs]`. -/
theorem C09_restriction_in_range {α : Type*} (y : Labels α) (indicies : List Nat) :
    (∀ ps, (getYWithIdx y indicies).rel = some ps → ∀ p ∈ ps, p.u < indicies.length ∧ p.v < indicies.length) ∧
    (∀ rs, (getYWithIdx y indicies).ord = some rs → ∀ r ∈ rs, r.2 < indicies.length) ∧
    (∀ rs, (getYWithIdx y indicies).abs = some rs → ∀ r ∈ rs, r.2 < indicies.length) := by
  have hl := @idxMapping_lookup_lt indicies
  refine ⟨?_, fun rs h => restrictRatings_lt y.ord rs h, fun rs h => restrictRatings_lt y.abs rs h⟩
  intro ps h p hp
  unfold getYWithIdx at h
  cases hrel : y.rel with
  | none => simp [hrel] at h
  | some l =>
    simp only [hrel, Option.bind_some, restrictPairs] at h
    split at h
    · simp at h
    · simp only [Option.some.injEq] at h
      subst h
      obtain ⟨q, _, hq⟩ := List.mem_filterMap.mp hp
      split at hq
      · split at hq
        · rename_i h1 h2
          simp only [Option.some.injEq] at hq
          subst hq
          exact ⟨hl _ _ h1, hl _ _ h2⟩
        · simp at hq
      · simp at hq

/-- C09: a label type becomes absent exactly when nothing of it is left. -/
theorem C09_restriction_absent {α : Type*} (y : Labels α) (indicies : List Nat) :
    ((getYWithIdx y indicies).rel = none ↔ ∀ ps, y.rel = some ps → ∀ p ∈ ps, ¬ (p.u ∈ indicies ∧ p.v ∈ indicies)) ∧
    ((getYWithIdx y indicies).ord = none ↔ ∀ rs, y.ord = some rs → ∀ r ∈ rs, r.2 ∉ indicies) ∧
    ((getYWithIdx y indicies).abs = none ↔ ∀ rs, y.abs = some rs → ∀ r ∈ rs, r.2 ∉ indicies) := by
  refine ⟨?_, restrictRatings_none y.ord, restrictRatings_none y.abs⟩
  unfold getYWithIdx
  cases hrel : y.rel with
  | none => simp
  | some l =>
    simp only [Option.bind_some, restrictPairs, Option.some.injEq, forall_eq']
    split
    · rename_i he
      rw [List.isEmpty_iff, List.filterMap_eq_nil_iff] at he
      simp only [true_iff]
      intro r hr hmem
      have := he r hr
      obtain ⟨i, hi, _⟩ := idxMapping_lookup hmem.1
      obtain ⟨j, hj, _⟩ := idxMapping_lookup hmem.2
      simp [hmem, hi, hj] at this
    · rename_i he
      simp only [reduceCtorEq, false_iff]
      intro hall
      apply he
      rw [List.isEmpty_iff, List.filterMap_eq_nil_iff]
      intro r hr
      rw [if_neg (hall r hr)]

example : [4, 0, 2].mapM (fun i => ["a", "b", "c", "d", "e"][i]?) = some ["e", "a", "c"] := by decide
example : (getYWithIdx (α := Rat) { rel := some [⟨-1, 0, 4⟩, ⟨1, 1, 4⟩], abs := some [(3, 2)] } [4, 0, 2]).rel
    = some [⟨-1, 1, 0⟩] := by decide

/-! ## C10 -/

section Normalize
variable {K : Type*} [Field K] [LinearOrder K] [IsStrictOrderedRing K]

/-- C10: on a non-empty vector with `eps > 0`, `normalize_0_1` succeeds, keeps the length, every
output lies strictly between 0 and 1, and order (strict and ties) of the entries is preserved. -/
theorem C10_normalize_unit_interval_and_order (x : List K) (eps : K) (hx : x ≠ []) (he : 0 < eps) :
    ∃ out, normalize01 x eps = .ok out ∧ out.length = x.length ∧ (∀ o ∈ out, 0 < o ∧ o < 1) ∧
      ∀ (i j : Nat) xi xj oi oj, x[i]? = some xi → x[j]? = some xj → out[i]? = some oi → out[j]? = some oj →
        (xi < xj ↔ oi < oj) ∧ (xi = xj ↔ oi = oj) := by
  obtain ⟨a, as, rfl⟩ := List.exists_cons_of_ne_nil hx
  obtain ⟨M1, M2⟩ := foldl_max_ge as a
  obtain ⟨m1, m2⟩ := foldl_min_le as a
  have hmx : ∀ y ∈ a :: as, y ≤ as.foldl max a := by simpa using ⟨M1, M2⟩
  have hmn : ∀ y ∈ a :: as, as.foldl min a ≤ y := by simpa using ⟨m1, m2⟩
  have hr : 0 < as.foldl max a - as.foldl min a + 2 * eps := by linarith
  refine ⟨_, rfl, by simp, ?_, ?_⟩
  · intro o ho
    obtain ⟨y, hy, rfl⟩ := List.mem_map.mp ho
    have := hmx y hy
    have := hmn y hy
    refine ⟨mul_pos (by linarith) (one_div_pos.mpr hr), ?_⟩
    rw [mul_one_div, div_lt_one hr]
    linarith
  · intro i j xi xj oi oj hi hj hoi hoj
    rw [List.getElem?_map, hi] at hoi
    rw [List.getElem?_map, hj] at hoj
    simp only [Option.map_some, Option.some.injEq] at hoi hoj
    subst hoi; subst hoj
    have hs := one_div_pos.mpr hr
    constructor
    · rw [mul_lt_mul_iff_left₀ hs]
      constructor <;> intro h <;> linarith
    · constructor
      · rintro rfl; rfl
      · intro h
        have := mul_right_cancel₀ hs.ne' h
        linarith

/-- C10: with value range `r = max - min`, outputs lie in `[eps/(r+2eps), (r+eps)/(r+2eps)]` and both
ends are attained. -/
theorem C10_normalize_exact_range (x out : List K) (eps : K) (he : 0 < eps)
    (h : normalize01 x eps = .ok out) :
    ∃ lo hi, lo ∈ x ∧ hi ∈ x ∧ (∀ y ∈ x, lo ≤ y ∧ y ≤ hi) ∧
      (∀ o ∈ out, eps / (hi - lo + 2 * eps) ≤ o ∧ o ≤ (hi - lo + eps) / (hi - lo + 2 * eps)) ∧
      eps / (hi - lo + 2 * eps) ∈ out ∧ (hi - lo + eps) / (hi - lo + 2 * eps) ∈ out := by
  cases x with
  | nil => simp [normalize01] at h
  | cons a as =>
    obtain ⟨M1, M2⟩ := foldl_max_ge as a
    obtain ⟨m1, m2⟩ := foldl_min_le as a
    have hmx : ∀ y ∈ a :: as, y ≤ as.foldl max a := by simpa using ⟨M1, M2⟩
    have hmn : ∀ y ∈ a :: as, as.foldl min a ≤ y := by simpa using ⟨m1, m2⟩
    have hr : 0 < as.foldl max a - as.foldl min a + 2 * eps := by linarith
    simp only [normalize01, Except.ok.injEq] at h
    subst h
    refine ⟨as.foldl min a, as.foldl max a, foldl_min_mem as a, foldl_max_mem as a,
      fun y hy => ⟨hmn y hy, hmx y hy⟩, ?_, ?_, ?_⟩
    · intro o ho
      obtain ⟨y, hy, rfl⟩ := List.mem_map.mp ho
      have := hmx y hy
      have := hmn y hy
      rw [mul_one_div]
      constructor <;> apply div_le_div_of_nonneg_right _ hr.le <;> linarith
    · rw [List.mem_map]
      exact ⟨_, foldl_min_mem as a, by rw [mul_one_div]; congr 1; ring⟩
    · rw [List.mem_map]
      exact ⟨_, foldl_max_mem as a, by rw [mul_one_div]⟩

/-- C10 (error branch): an empty vector is a `ValueError`. -/
theorem C10_normalize_empty (eps : K) : normalize01 ([] : List K) eps = .error .valueError := rfl

end Normalize

example : normalize01 [2, 6, (4 : ℚ)] 1 = .ok [1 / 6, 5 / 6, 1 / 2] := by
  norm_num [normalize01]

end Lop.Props
