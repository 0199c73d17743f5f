import Verif.Proofs.Pairs
import Verif.Spec.Pairs
import Mathlib.Logic.Relation
import Mathlib.Tactic.Linarith
import Mathlib.Data.List.Nodup
import Mathlib.Data.Prod.Lex
import Mathlib.Tactic.Abel

/-! # C01 (encoding part), C02, C03, C04: preference pairs -/

namespace Lop.Props

open Lop Lop.Spec

variable {α : Type*} [LinearOrder α]

/-! ## C01 (encoding) -/

/-- C01 (encoding half): for scalars, `get_dk` succeeds and says "first wins" exactly when the first
value is at least the second, "second wins" exactly otherwise; nothing else is ever returned. -/
theorem C01_get_dk_sign (u v : α) :
    ∃ d, getDk (.scalar u) (.scalar v) = .ok d ∧ (d = -1 ↔ v ≤ u) ∧ (d = 1 ↔ u < v) ∧ (d = -1 ∨ d = 1) := by
  refine ⟨_, rfl, ?_⟩
  unfold getDkScalar
  rcases lt_trichotomy u v with h | h | h
  · simp [h, not_lt.mpr h.le]
  · simp [h]
  · simp [h, h.le, not_lt.mpr h.le]

/-- C01: sequences (instead of scalars) are refused with a `TypeError`, in either position. -/
theorem C01_get_dk_rejects_sequences (x : PyArg α) :
    getDk (α := α) .sequence x = .error .typeError ∧ getDk x .sequence = .error .typeError := by
  cases x <;> simp [getDk]

/-- C01: `preference(u, v)` records `u` as winner and `v` as loser. -/
theorem C01_preference_winner (u v : Nat) :
    winner (preference u v) = u ∧ loser (preference u v) = v := by
  simp [preference, getDkScalar, winner, loser]

/-- C01: a pair built from two values with `get_dk` names a winner with at least the loser's value. -/
theorem C01_get_dk_pair_winner (y : Nat → α) (i j : Nat) :
    y (loser ⟨getDkScalar (y i) (y j), i, j⟩) ≤ y (winner ⟨getDkScalar (y i) (y j), i, j⟩) := by
  unfold winner loser getDkScalar
  rcases lt_trichotomy (y i) (y j) with h | h | h
  · simp [h, not_lt.mpr h.le, h.le]
  · simp [h]
  · simp [h, h.le]

example : getDk (.scalar (3 : Int)) (.scalar 5) = .ok 1 := by decide
example : getDk (.scalar (5 : Int)) (.scalar 5) = .ok (-1) := by decide

/-! ## C02 -/

/-- C02: the pairs are, in list order, one per listed index different from `best`, each recording
`best` as the winner of that index. -/
theorem C02_gen_pairs_exact (best : Nat) (idxs : List Nat) :
    (genPairsFromIdx best idxs).map (fun p => (winner p, loser p))
      = (idxs.filter (· ≠ best)).map (fun i => (best, i)) := by
  induction idxs with
  | nil => rfl
  | cons i rest ih =>
    unfold genPairsFromIdx
    by_cases h : i = best
    · simpa [h] using ih
    · simpa [h, C01_preference_winner] using ih

/-- C02: `best` is never compared with itself. -/
theorem C02_gen_pairs_irrefl (best : Nat) (idxs : List Nat) :
    ∀ p ∈ genPairsFromIdx best idxs, winner p = best ∧ loser p ≠ best ∧ loser p ∈ idxs := by
  intro p hp
  have h := C02_gen_pairs_exact best idxs
  have hm : (winner p, loser p) ∈ (genPairsFromIdx best idxs).map (fun p => (winner p, loser p)) :=
    List.mem_map_of_mem hp
  rw [h] at hm
  simp only [ne_eq, decide_not, List.mem_map, List.mem_filter, Bool.not_eq_eq_eq_not, Bool.not_true,
    decide_eq_false_iff_not, Prod.mk.injEq] at hm
  obtain ⟨a, ⟨ha, hne⟩, h1, h2⟩ := hm
  exact ⟨h1.symm, h2 ▸ hne, h2 ▸ ha⟩

example : genPairsFromIdx 2 [0, 2, 5, 0] = [⟨-1, 2, 0⟩, ⟨-1, 2, 5⟩, ⟨-1, 2, 0⟩] := by decide

/-! ## C03 -/

/-- C03 (coverage): any two different points of a ranking are related by exactly one pair. -/
theorem C03_ranked_covers_each_pair_once (y : List α) (a b : Nat) (ha : a < y.length)
    (hb : b < y.length) (hab : a ≠ b) : timesRelated (rankedPairsFromFake y) a b = 1 := by
  wlog hlt : a < b generalizing a b
  · have := this b a hb ha hab.symm (by omega)
    unfold timesRelated at *
    rw [← this]
    congr 1
    funext p
    simp [Or.comm]
  have hcount : timesRelated (rankedPairsFromFake y) a b
      = ((rankedPairsFromFake y).map fun p => (p.u, p.v)).count (a, b) := by
    unfold timesRelated List.count
    rw [List.countP_map]
    apply List.countP_congr
    intro p hp
    obtain ⟨i, j, hij, rfl⟩ := mem_ranked.mp hp
    have : (i : Nat) < j := hij
    simp
    omega
  rw [hcount]
  apply List.count_eq_one_of_mem (ranked_nodup_ends y)
  rw [List.mem_map]
  exact ⟨_, mem_ranked.mpr ⟨⟨a, ha⟩, ⟨b, hb⟩, hlt, rfl⟩, rfl⟩

/-- C03: every pair of a ranking relates two different existing points. -/
theorem C03_ranked_in_range (y : List α) :
    ∀ p ∈ rankedPairsFromFake y, winner p < y.length ∧ loser p < y.length ∧ winner p ≠ loser p := by
  intro p hp
  obtain ⟨i, j, hij, rfl⟩ := mem_ranked.mp hp
  have : (i : Nat) < j := hij
  unfold winner loser
  split <;> simp <;> omega

/-- C03 (agreement): the recorded winner never has a smaller value than the loser. -/
theorem C03_ranked_agrees (y : List α) :
    ∀ p ∈ rankedPairsFromFake y, ∃ yw yl, y[winner p]? = some yw ∧ y[loser p]? = some yl ∧
      (yl < yw ∨ (yl = yw ∧ winner p < loser p)) := by
  intro p hp
  obtain ⟨i, j, hij, rfl⟩ := mem_ranked.mp hp
  have hij' : (i : Nat) < j := hij
  unfold winner loser getDkScalar
  rcases lt_trichotomy (y.get i) (y.get j) with h | h | h
  · refine ⟨y.get j, y.get i, ?_⟩
    simp only [gt_iff_lt, not_lt.mpr h.le, ↓reduceIte, h]
    simp
  · refine ⟨y.get i, y.get j, ?_⟩
    simp only [gt_iff_lt, h, lt_self_iff_false, ↓reduceIte]
    simp [hij']
    simpa using h
  · refine ⟨y.get i, y.get j, ?_⟩
    simp only [gt_iff_lt, h, ↓reduceIte]
    simp

/-- C03 (acyclic): the preferences recorded by a ranking contain no cycle, ties included. -/
theorem C03_ranked_acyclic (y : List α) (a : Nat) :
    ¬ Relation.TransGen (Beats (rankedPairsFromFake y)) a a := by
  have key : ∀ a b, Relation.TransGen (Beats (rankedPairsFromFake y)) a b →
      ∃ ya yb, y[a]? = some ya ∧ y[b]? = some yb ∧ (yb < ya ∨ (yb = ya ∧ a < b)) := by
    intro a b h
    induction h with
    | single h =>
      obtain ⟨p, hp, rfl, rfl⟩ := h
      exact C03_ranked_agrees y p hp
    | tail _ h ih =>
      obtain ⟨p, hp, h1, rfl⟩ := h
      obtain ⟨yw, yl, hw, hl, hcmp⟩ := C03_ranked_agrees y p hp
      obtain ⟨ya, yb, hya, hyb, hc⟩ := ih
      rw [← h1, hw] at hyb
      cases hyb
      refine ⟨ya, yl, hya, hl, ?_⟩
      rcases hcmp with h | ⟨h, h'⟩ <;> rcases hc with g | ⟨g, g'⟩
      · exact Or.inl (h.trans g)
      · exact Or.inl (g ▸ h)
      · exact Or.inl (h ▸ g)
      · exact Or.inr ⟨h.trans g, by omega⟩
  intro h
  obtain ⟨ya, yb, h1, h2, h3⟩ := key a a h
  rw [h1] at h2
  cases h2
  rcases h3 with h | ⟨_, h⟩ <;> exact lt_irrefl _ h

/-- C03 (`generate_fake_pairs`): for an existing `pair_i` the call succeeds, relates `pair_i` to
every other point exactly once, and the recorded winner never has the smaller value. -/
theorem C03_fake_pairs_exact (y : List α) (i : Nat) (hi : i < y.length) :
    ∃ ps, generateFakePairs y i = .ok ps ∧
      (∀ p ∈ ps, p.u = i) ∧ ps.map Pair.v = (List.range y.length).filter (· ≠ i) ∧
      ∀ p ∈ ps, ∃ yw yl, y[winner p]? = some yw ∧ y[loser p]? = some yl ∧ yl ≤ yw := by
  unfold generateFakePairs
  rw [List.getElem?_eq_getElem hi]
  refine ⟨_, rfl, ?_, ?_, ?_⟩
  · intro p hp
    obtain ⟨j, _, rfl⟩ := List.mem_map.mp hp
    rfl
  · rw [List.map_map]
    have hr : List.range y.length = (List.finRange y.length).map Fin.val := by
      simp
    rw [hr, List.filter_map]
    rfl
  · intro p hp
    obtain ⟨j, _, rfl⟩ := List.mem_map.mp hp
    unfold winner loser getDkScalar
    rcases lt_trichotomy (y[i]) (y.get j) with h | h | h
    · refine ⟨y.get j, y[i], ?_⟩
      simp only [gt_iff_lt, not_lt.mpr h.le, ↓reduceIte, h]
      simp [hi]
      exact h.le
    · refine ⟨y[i], y.get j, ?_⟩
      simp only [gt_iff_lt, h, lt_self_iff_false, ↓reduceIte]
      simp [hi]
      simpa using h
    · refine ⟨y[i], y.get j, ?_⟩
      simp only [gt_iff_lt, h, ↓reduceIte]
      simp [hi]
      exact h.le

/-- C03: pairs collected from any number of `generate_fake_pairs` calls on the same values have no
cycle of strict preferences (preferences between points of different value). -/
theorem C03_fake_pairs_strict_acyclic (y : List α) (calls : List Nat) (a : Nat) :
    ¬ Relation.TransGen (fun a b => y[a]? ≠ y[b]? ∧
      ∃ i ∈ calls, ∃ ps, generateFakePairs y i = .ok ps ∧ Beats ps a b) a a := by
  have key : ∀ a b, Relation.TransGen (fun a b => y[a]? ≠ y[b]? ∧
      ∃ i ∈ calls, ∃ ps, generateFakePairs y i = .ok ps ∧ Beats ps a b) a b →
      ∃ ya yb, y[a]? = some ya ∧ y[b]? = some yb ∧ yb < ya := by
    have base : ∀ a b, (y[a]? ≠ y[b]? ∧
      ∃ i ∈ calls, ∃ ps, generateFakePairs y i = .ok ps ∧ Beats ps a b) →
      ∃ ya yb, y[a]? = some ya ∧ y[b]? = some yb ∧ yb < ya := by
      rintro a b ⟨hne, i, -, ps, hps, p, hp, rfl, rfl⟩
      by_cases hi : i < y.length
      · obtain ⟨ps', h1, _, _, h4⟩ := C03_fake_pairs_exact y i hi
        rw [hps] at h1
        cases h1
        obtain ⟨yw, yl, hw, hl, hle⟩ := h4 p hp
        refine ⟨yw, yl, hw, hl, lt_of_le_of_ne hle ?_⟩
        rintro rfl
        exact hne (hw.trans hl.symm)
      · unfold generateFakePairs at hps
        rw [List.getElem?_eq_none (by omega)] at hps
        by_cases hy : y.isEmpty
        · simp [hy] at hps
          subst hps
          simp at hp
        · simp [hy] at hps
    intro a b h
    induction h with
    | single h => exact base _ _ h
    | tail _ h ih =>
      obtain ⟨y1, y2, h1, h2, h3⟩ := ih
      obtain ⟨z1, z2, g1, g2, g3⟩ := base _ _ h
      rw [h2] at g1
      cases g1
      exact ⟨y1, z2, h1, g2, g3.trans h3⟩
  intro h
  obtain ⟨ya, yb, h1, h2, h3⟩ := key a a h
  rw [h1] at h2
  cases h2
  exact lt_irrefl _ h3

/-- C03 (error branch): a `pair_i` outside a non-empty value list raises `IndexError`. -/
theorem C03_fake_pairs_out_of_range (y : List α) (i : Nat) (hy : y ≠ []) (hi : y.length ≤ i) :
    generateFakePairs y i = .error .indexError := by
  unfold generateFakePairs
  rw [List.getElem?_eq_none hi]
  simp [hy]

example : rankedPairsFromFake [3, 1, 3, (7 : Int)] =
    [⟨-1, 0, 1⟩, ⟨-1, 0, 2⟩, ⟨1, 0, 3⟩, ⟨1, 1, 2⟩, ⟨1, 1, 3⟩, ⟨1, 2, 3⟩] := by decide
example : timesRelated (rankedPairsFromFake [3, 1, 3, (7 : Int)]) 2 1 = 1 := by decide
example : generateFakePairs [3, 1, (7 : Int)] 1 = .ok [⟨1, 1, 0⟩, ⟨1, 1, 2⟩] := by decide
/-- With ties, pairs collected over several calls do contain a two-cycle between the tied points;
this is why the statement above is about strict preferences only. -/
example : generateFakePairs [3, (3 : Int)] 0 = .ok [⟨-1, 0, 1⟩] ∧
    generateFakePairs [3, (3 : Int)] 1 = .ok [⟨-1, 1, 0⟩] := by decide

/-! ## C04 -/

/-- C04 is violated: whatever the values, the caller of `generate_ranking_pairs` receives `None`,
although at least one pair exists as soon as there are two points. -/
theorem C04_ranking_pairs_never_returned (i j : Nat) (rest : List Nat) :
    generateRankingPairs (i :: j :: rest) = none ∧ rankingPairsLoop (i :: j :: rest) ≠ [] := by
  simp [generateRankingPairs, rankingPairsLoop]

/-- C04, what does hold of the list that is built (and then dropped): given a correct descending
order, every two points are related once, the better one winning.  Missing for C04: the list is
not returned. -/
theorem C04_ranking_pairs_built_partial (y : List α) (order : List Nat)
    (hperm : order.Perm (List.range y.length))
    (hdesc : order.Pairwise fun i j => ∀ yi yj, y[i]? = some yi → y[j]? = some yj → yj ≤ yi) :
    (∀ p ∈ rankingPairsLoop order, ∀ yw yl, y[winner p]? = some yw → y[loser p]? = some yl → yl ≤ yw) ∧
    ∀ a b, a < y.length → b < y.length → a ≠ b → timesRelated (rankingPairsLoop order) a b = 1 := by
  have hnd : order.Nodup := hperm.nodup_iff.mpr List.nodup_range
  have mem : ∀ l : List Nat, ∀ p, p ∈ rankingPairsLoop l ↔ p.dk = -1 ∧ [p.u, p.v].Sublist l := by
    intro l
    induction l with
    | nil => intro p; simp [rankingPairsLoop]
    | cons x xs ih =>
      intro p
      simp only [rankingPairsLoop, List.mem_append, List.mem_map, ih]
      have hd : getDkScalar (1 : Int) 0 = -1 := by decide
      rw [hd]
      constructor
      · rintro (⟨z, hz, rfl⟩ | ⟨h1, h2⟩)
        · exact ⟨rfl, List.Sublist.cons_cons _ (List.singleton_sublist.mpr hz)⟩
        · exact ⟨h1, h2.cons _⟩
      · rintro ⟨h1, h2⟩
        cases h2 with
        | cons _ h => exact Or.inr ⟨h1, h⟩
        | cons_cons _ h =>
          left
          refine ⟨p.v, List.singleton_sublist.mp h, ?_⟩
          cases p
          simp_all
  constructor
  · intro p hp yw yl hw hl
    obtain ⟨h1, h2⟩ := (mem order p).mp hp
    have := hdesc.sublist h2
    simp only [winner, loser, h1, ↓reduceIte] at hw hl
    simp at this
    exact this yw yl hw hl
  · intro a b ha hb hab
    have ha' : a ∈ order := hperm.mem_iff.mpr (List.mem_range.mpr ha)
    have hb' : b ∈ order := hperm.mem_iff.mpr (List.mem_range.mpr hb)
    clear hdesc hperm mem
    have aux0 : ∀ l : List Nat, a ∉ l ∨ b ∉ l → timesRelated (rankingPairsLoop l) a b = 0 := by
      intro l
      induction l with
      | nil => intro _; rfl
      | cons x xs ih =>
        intro h
        unfold timesRelated at *
        simp only [rankingPairsLoop, List.countP_append]
        rw [ih (by rcases h with h | h <;> simp at h <;> tauto)]
        simp only [Nat.add_zero, List.countP_eq_zero, List.mem_map]
        rintro _ ⟨z, hz, rfl⟩
        simp only [decide_eq_true_eq]
        rintro (⟨h1, h2⟩ | ⟨h1, h2⟩) <;> subst h1 <;> subst h2 <;> simp_all
    have cnt : ∀ (xs : List Nat) (x c : Nat), xs.Nodup → c ∈ xs → x ≠ c →
        ((xs.map fun idx2 => (⟨getDkScalar (1 : Int) 0, x, idx2⟩ : Pair)).countP
          fun p => (p.u = x ∧ p.v = c) ∨ (p.u = c ∧ p.v = x)) = 1 := by
      intro xs x c hnd hc hne
      rw [List.countP_map]
      rw [← List.count_eq_one_of_mem hnd hc, List.count]
      apply List.countP_congr
      intro z _
      simp [hne]
    induction order with
    | nil => simp at ha'
    | cons x xs ih =>
      have hx : x ∉ xs := (List.nodup_cons.mp hnd).1
      have hnd' := (List.nodup_cons.mp hnd).2
      by_cases hxa : x = a
      · subst hxa
        have hbx : b ∈ xs := by
          rcases List.mem_cons.mp hb' with h | h
          · exact absurd h.symm hab
          · exact h
        have h0 := aux0 xs (Or.inl hx)
        unfold timesRelated at *
        simp only [rankingPairsLoop, List.countP_append, h0]
        exact cnt xs x b hnd' hbx hab
      · by_cases hxb : x = b
        · subst hxb
          have hax : a ∈ xs := by
            rcases List.mem_cons.mp ha' with h | h
            · exact absurd h hab
            · exact h
          have h0 := aux0 xs (Or.inr hx)
          unfold timesRelated at *
          simp only [rankingPairsLoop, List.countP_append, h0]
          rw [← cnt xs x a hnd' hax hab.symm, Nat.add_zero]
          apply List.countP_congr
          intro z _
          simp [Or.comm]
        · have ha2 : a ∈ xs := by
            rcases List.mem_cons.mp ha' with h | h
            · exact absurd h.symm hxa
            · exact h
          have hb2 : b ∈ xs := by
            rcases List.mem_cons.mp hb' with h | h
            · exact absurd h.symm hxb
            · exact h
          have h1 := ih hnd' ha2 hb2
          unfold timesRelated at *
          simp only [rankingPairsLoop, List.countP_append, h1]
          rw [Nat.add_eq_right, List.countP_eq_zero]
          intro p hp
          obtain ⟨z, _, rfl⟩ := List.mem_map.mp hp
          simp [hxa, hxb]

/-- The hypotheses of the partial theorem are met by values `[3,1,7]` with order `[2,0,1]`. -/
example : [2, 0, 1].Perm (List.range [3, 1, (7 : Int)].length) ∧
    [2, 0, 1].Pairwise fun i j => ∀ yi yj, [3, 1, (7 : Int)][i]? = some yi →
      [3, 1, (7 : Int)][j]? = some yj → yj ≤ yi := by
  refine ⟨by decide, ?_⟩
  simp

end Lop.Props
