import Verif.Model.RepIndex
import Verif.Props.RepQ
import Mathlib.Data.Finset.Powerset
import Mathlib.Data.Finset.Card

/-! # C106: representative queries name representative points of the samples -/

namespace Lop.Props

open Lop Lop.Spec

variable {P : Type*}

theorem alignIndex_ok (kind : AlignKind) {width k : Nat} {Q : List (List Nat)} (h : ValidQueries width k Q) :
    alignIndex kind width Q = .ok () := by
  unfold alignIndex
  split
  · rfl
  · rw [if_neg]
    rintro ⟨-, h2⟩
    simp only [List.any_eq_true, decide_eq_true_eq] at h2
    obtain ⟨q, hq, i, hi, hle⟩ := h2
    exact absurd ((h.1 q hq).2.2 i hi) (not_lt.2 hle)

/-- The pool from which representative points are drawn. -/
def poolSize (xs : List P) (cand : Option (List P)) : Nat :=
  if xs.length < 4 then xs.length + (cand.getD []).length else xs.length

theorem poolSize_eq (xs : List P) (cand : Option (List P)) :
    (if xs.length < 4 then xs ++ cand.getD [] else xs).length = poolSize xs cand := by
  unfold poolSize; split <;> simp

/-- C106: with samples drawn in this call, or with samples set for as many representative points as are drawn now,
the queries never name a missing column: an exception can only come from `get_representative_Q` itself. -/
theorem C106_in_range (kind : AlignKind) (stored numAlts : Option Nat) (numPts numQ : Nat) (xs : List P)
    (cand : Option (List P)) (choice rng : Nat → Nat → List Nat) (fuel : Nat)
    (hc : ∀ n m, m ≤ n → ChoiceNoReplace (List.range n) m (choice n m))
    (hr : ∀ t i, ChoiceNoReplace (List.range (min (poolSize xs cand) numPts)) (repAlts numAlts) (rng t i))
    (hs : ∀ d, stored = some d → d = min (poolSize xs cand) numPts)
    (pts : List P) (Q : List (List Nat))
    (h : repQ numAlts (.sampled numPts numQ) (some xs) cand choice rng fuel = .ok (some (some (pts, Q)))) :
    acqAlign kind stored numAlts (.sampled numPts numQ) (some xs) cand choice rng fuel = .ok (some true) := by
  obtain ⟨h1, -, h3, -⟩ := C54_sampled numAlts numPts numQ xs cand choice rng fuel hc hr pts Q h
  rw [poolSize_eq] at h1
  have hw : stored.getD pts.length = pts.length := by
    cases stored with
    | none => rfl
    | some d => rw [Option.getD_some, h1, hs d rfl]
  rw [acqAlign, h]
  simp only [hw, alignIndex_ok kind h3, Except.map]

/-- C106 for representative points from a file. -/
theorem C106_stable (kind : AlignKind) (stored numAlts : Option Nat) (file : List P) (xTrain cand : Option (List P))
    (choice rng : Nat → Nat → List Nat) (fuel : Nat) (hs : ∀ d, stored = some d → d = file.length)
    (hk : 0 < repAlts numAlts) (hle : repAlts numAlts ≤ file.length / 10) :
    acqAlign kind stored numAlts (.stable file) xTrain cand choice rng fuel = .ok (some true) := by
  obtain ⟨Q, h, hv, -⟩ := (C54_stable numAlts file xTrain cand choice rng fuel).2 hk hle
  have hw : stored.getD file.length = file.length := by
    cases stored with
    | none => rfl
    | some d => rw [Option.getD_some, hs d rfl]
  rw [acqAlign, h]
  simp only [hw, alignIndex_ok kind hv, Except.map]

/-- The other four alignment functions do not look at the queries. -/
theorem C106_other_kinds (kind : AlignKind) (hk : kind ≠ .loglikelihood) (stored numAlts : Option Nat)
    (method : RepMethod P) (xTrain cand : Option (List P)) (choice rng : Nat → Nat → List Nat) (fuel : Nat)
    (pts : List P) (Q : List (List Nat)) (h : repQ numAlts method xTrain cand choice rng fuel = .ok (some (some (pts, Q)))) :
    acqAlign kind stored numAlts method xTrain cand choice rng fuel = .ok (some true) := by
  rw [acqAlign, h]
  simp [alignIndex, hk, Except.map]

/-- C106, the remaining results: without training data (`sampled`) the choice is random whatever samples are set;
an exception of `get_representative_Q` is passed on; and as long as the drawing of queries has not ended nothing is
returned. -/
theorem C106_no_queries (kind : AlignKind) (stored numAlts : Option Nat) (method : RepMethod P)
    (xTrain cand : Option (List P)) (choice rng : Nat → Nat → List Nat) (fuel numPts numQ : Nat) (e : PyErr) :
    acqAlign kind stored numAlts (.sampled numPts numQ) none cand choice rng fuel = .ok (some false) ∧
    (repQ numAlts method xTrain cand choice rng fuel = .error e →
      acqAlign kind stored numAlts method xTrain cand choice rng fuel = .error e) ∧
    (acqAlign kind stored numAlts method xTrain cand choice rng fuel = .ok none ↔
      repQ numAlts method xTrain cand choice rng fuel = .ok none) := by
  refine ⟨rfl, fun h => by rw [acqAlign, h], ?_⟩
  rw [acqAlign]
  constructor
  · intro h
    split at h
    · cases h
    · assumption
    · cases h
    · next pts Q _ =>
      cases hA : alignIndex kind (stored.getD pts.length) Q <;> rw [hA] at h <;> simp [Except.map] at h
  · intro h
    rw [h]

/-- As many different queries as there are name every point. -/
theorem valid_all_named {n k : Nat} {Q : List (List Nat)} (h : ValidQueries n k Q) (hl : Q.length = n.choose k)
    (hk : 0 < k) (hkn : k ≤ n) (i : Nat) (hi : i < n) : ∃ q ∈ Q, i ∈ q := by
  classical
  have hnd : (Q.map List.toFinset).Nodup := List.pairwise_map.2 h.2
  have hsub : (Q.map List.toFinset).toFinset ⊆ (Finset.range n).powersetCard k := by
    intro s hs
    simp only [List.mem_toFinset, List.mem_map] at hs
    obtain ⟨q, hq, rfl⟩ := hs
    obtain ⟨h1, h2, h3⟩ := h.1 q hq
    rw [Finset.mem_powersetCard]
    refine ⟨fun x hx => Finset.mem_range.2 (h3 x (List.mem_toFinset.1 hx)), ?_⟩
    rw [List.toFinset_card_of_nodup (h1.imp ne_of_lt), h2]
  have heq : (Q.map List.toFinset).toFinset = (Finset.range n).powersetCard k :=
    Finset.eq_of_subset_of_card_le hsub (by
      rw [List.toFinset_card_of_nodup hnd, Finset.card_powersetCard, Finset.card_range, List.length_map, hl])
  obtain ⟨t, ht, hit⟩ : ∃ t ∈ (Finset.range n).powersetCard k, i ∈ t := by
    obtain ⟨t, ht1, ht2⟩ := Finset.exists_subsuperset_card_eq (s := {i}) (t := Finset.range n) (n := k)
      (by simpa using hi) (by rw [Finset.card_singleton]; omega) (by simpa using hkn)
    exact ⟨t, Finset.mem_powersetCard.2 ⟨ht2.1, ht2.2⟩, ht1 (Finset.mem_singleton_self i)⟩
  rw [← heq] at ht
  simp only [List.mem_toFinset, List.mem_map] at ht
  obtain ⟨q, hq, rfl⟩ := ht
  exact ⟨q, hq, List.mem_toFinset.1 hit⟩

/-- C106 refuted for samples that were set for fewer representative points: if there are at most as many possible
queries as are asked for (with the default 50 queries of two: up to ten points), the alignment `loglikelihood`
raises `IndexError`, whatever is drawn. This happens to `MixedDecision` as soon as the training data has grown since
its last decision (C78). -/
theorem C106_grown_false (d : Nat) (hd : 2 ≤ d) (numAlts : Option Nat) (numPts numQ : Nat) (xs : List P)
    (cand : Option (List P)) (choice rng : Nat → Nat → List Nat) (fuel : Nat)
    (hc : ∀ n m, m ≤ n → ChoiceNoReplace (List.range n) m (choice n m))
    (hr : ∀ t i, ChoiceNoReplace (List.range (min (poolSize xs cand) numPts)) (repAlts numAlts) (rng t i))
    (hgrown : d < min (poolSize xs cand) numPts)
    (hQ : (min (poolSize xs cand) numPts).choose (repAlts numAlts) ≤ numQ)
    (hk : 0 < repAlts numAlts) (hkn : repAlts numAlts ≤ min (poolSize xs cand) numPts)
    (pts : List P) (Q : List (List Nat))
    (h : repQ numAlts (.sampled numPts numQ) (some xs) cand choice rng fuel = .ok (some (some (pts, Q)))) :
    acqAlign .loglikelihood (some d) numAlts (.sampled numPts numQ) (some xs) cand choice rng fuel =
      .error .indexError := by
  obtain ⟨h1, -, h3, h4⟩ := C54_sampled numAlts numPts numQ xs cand choice rng fuel hc hr pts Q h
  rw [poolSize_eq] at h1
  rw [h1] at h3 h4
  rw [min_eq_right hQ] at h4
  obtain ⟨q, hq, hi⟩ := valid_all_named h3 h4 hk hkn d hgrown
  rw [acqAlign, h]
  have : (Q.any fun q => q.any fun i => decide (d ≤ i)) = true := by
    simp only [List.any_eq_true, decide_eq_true_eq]
    exact ⟨q, hq, d, hi, le_rfl⟩
  simp [alignIndex, not_lt.2 hd, this, Except.map]

/-- C106, the exact condition: with samples set for `d ≥ 2` representative points, `loglikelihood` raises
`IndexError` exactly when some query of this call names a point beyond the first `d`. -/
theorem C106_exact (d : Nat) (hd : 2 ≤ d) (numAlts : Option Nat) (method : RepMethod P)
    (xTrain cand : Option (List P)) (choice rng : Nat → Nat → List Nat) (fuel : Nat)
    (pts : List P) (Q : List (List Nat)) (h : repQ numAlts method xTrain cand choice rng fuel = .ok (some (some (pts, Q)))) :
    acqAlign .loglikelihood (some d) numAlts method xTrain cand choice rng fuel =
      if ∃ q ∈ Q, ∃ i ∈ q, d ≤ i then .error .indexError else .ok (some true) := by
  rw [acqAlign, h]
  by_cases hx : ∃ q ∈ Q, ∃ i ∈ q, d ≤ i
  · rw [if_pos hx]
    have : (Q.any fun q => q.any fun i => decide (d ≤ i)) = true := by
      simpa only [List.any_eq_true, decide_eq_true_eq] using hx
    simp [alignIndex, not_lt.2 hd, this, Except.map]
  · rw [if_neg hx]
    have : ¬ (Q.any fun q => q.any fun i => decide (d ≤ i)) = true := by
      simpa only [List.any_eq_true, decide_eq_true_eq] using hx
    simp [alignIndex, this, Except.map]

/-- Draws for six training points: pass `t` draws one pair at a time, here always enough of them. -/
def repDraw (_t i : Nat) : List Nat :=
  ((combos (List.range 6) 2)[i % 15]?).getD [0, 1]

/-- The situation of `C106_grown_false` and of `C106_in_range` with six training points, the default 50 queries of
two, and samples that were set when there were four points: the queries are drawn in one pass. -/
theorem C106_grown_counterexample :
    acqAlign .loglikelihood (some 4) (some 2) (.sampled 60 50) (some [10, 11, 12, 13, 14, 15]) none
      (fun _ m => List.range m) repDraw 1 = .error .indexError ∧
    acqAlign .loglikelihood none (some 2) (.sampled 60 50) (some [10, 11, 12, 13, 14, 15]) none
      (fun _ m => List.range m) repDraw 1 = .ok (some true) ∧
    acqAlign .spearman (some 4) (some 2) (.sampled 60 50) (some [10, 11, 12, 13, 14, 15]) none
      (fun _ m => List.range m) repDraw 1 = .ok (some true) := by
  decide +kernel

/-- The draws meet the contracts of `np.random.choice`. -/
example : (∀ n m, m ≤ n → ChoiceNoReplace (List.range n) m (List.range m)) ∧
    ∀ t i, ChoiceNoReplace (List.range (min (poolSize [10, 11, 12, 13, 14, 15] none) 60)) (repAlts (some 2))
      (repDraw t i) := by
  refine ⟨fun n m h => ⟨List.length_range, (List.range_sublist.2 h).subperm⟩, fun t i => ?_⟩
  have h15 : ∀ j < 15, (((combos (List.range 6) 2)[j]?).getD [0, 1]).length = 2 ∧
      (((combos (List.range 6) 2)[j]?).getD [0, 1]).Nodup ∧
      ∀ x ∈ ((combos (List.range 6) 2)[j]?).getD [0, 1], x ∈ List.range 6 := by decide
  obtain ⟨h1, h2, h3⟩ := h15 (i % 15) (Nat.mod_lt _ (by decide))
  exact ⟨h1, List.subperm_of_subset h2 h3⟩

example : 2 ≤ 4 ∧ 4 < min (poolSize [10, 11, 12, 13, 14, 15] none) 60 ∧
    (min (poolSize [10, 11, 12, 13, 14, 15] none) 60).choose (repAlts (some 2)) ≤ 50 ∧
    (∃ pts Q, repQ (some 2) (.sampled 60 50) (some [10, 11, 12, 13, 14, 15]) none (fun _ m => List.range m) repDraw 1 =
      .ok (some (some (pts, Q)))) := by
  refine ⟨by decide, by decide, by decide, ?_⟩
  have : ∀ r, r = repQ (some 2) (.sampled 60 50) (some [10, 11, 12, 13, 14, 15]) none (fun _ m => List.range m) repDraw 1 →
      (match r with | .ok (some (some _)) => true | _ => false) = true := by
    rintro _ rfl; decide +kernel
  revert this
  generalize repQ (some 2) (.sampled 60 50) (some [10, 11, 12, 13, 14, 15]) none (fun _ m => List.range m) repDraw 1 = r
  intro h
  have h := h r rfl
  match r, h with
  | .ok (some (some (pts, Q))), _ => exact ⟨pts, Q, rfl⟩

end Lop.Props
