import Verif.Spec.Data
import Mathlib.Tactic.Linarith
import Mathlib.Tactic.Ring
import Mathlib.Tactic.NormNum

namespace Lop

open Spec

variable {d : Nat} {α : Type*} [LinearOrder α] {R : Type*} [Field R] [LinearOrder R]

theorem winner_shift (p : Pair) (n : Nat) :
    winner ⟨p.dk, p.u + n, p.v + n⟩ = winner p + n := by
  unfold winner; simp only; split <;> rfl

theorem loser_shift (p : Pair) (n : Nat) :
    loser ⟨p.dk, p.u + n, p.v + n⟩ = loser p + n := by
  unfold loser; simp only; split <;> rfl

theorem winner_lt {p : Pair} {n : Nat} (h : p.u < n ∧ p.v < n) : winner p < n := by
  unfold winner; split; exacts [h.1, h.2]

theorem loser_lt {p : Pair} {n : Nat} (h : p.u < n ∧ p.v < n) : loser p < n := by
  unfold loser; split; exacts [h.2, h.1]

theorem shifted_pairs_decode {P : Type*} (old X : List P) (ps : List Pair) :
    (ps.map fun p => (⟨p.dk, p.u + old.length, p.v + old.length⟩ : Pair)).map
        (fun p => ((old ++ X)[winner p]?, (old ++ X)[loser p]?)) =
      ps.map fun p => (X[winner p]?, X[loser p]?) := by
  rw [List.map_map]
  apply List.map_congr_left
  intro p _
  simp only [Function.comp_apply, winner_shift, loser_shift]
  rw [List.getElem?_append_right (by omega), List.getElem?_append_right (by omega)]
  simp

theorem old_pairs_decode {P : Type*} (old X : List P) (ps : List Pair)
    (h : ∀ p ∈ ps, p.u < old.length ∧ p.v < old.length) :
    ps.map (fun p => ((old ++ X)[winner p]?, (old ++ X)[loser p]?)) =
      ps.map fun p => (old[winner p]?, old[loser p]?) := by
  apply List.map_congr_left
  intro p hp
  rw [List.getElem?_append_left (winner_lt (h p hp)), List.getElem?_append_left (loser_lt (h p hp))]

theorem old_ratings_decode {P β : Type*} (old X : List P) (rs : List (β × Nat))
    (h : ∀ r ∈ rs, r.2 < old.length) :
    rs.map (fun r => ((old ++ X)[r.2]?, r.1)) = rs.map fun r => (old[r.2]?, r.1) := by
  apply List.map_congr_left
  intro r hr
  rw [List.getElem?_append_left (h r hr)]

theorem vec_ratings_decode {P β γ : Type*} (old X : List P) (v : List β) (g : β → γ)
    (hl : v.length = X.length) :
    (v.zipIdx.map fun (a, i) => (g a, i + old.length)).map (fun r => ((old ++ X)[r.2]?, r.1)) =
      List.zipWith (fun x a => (some x, g a)) X v := by
  apply List.ext_getElem
  · simp [hl]
  · intro i h1 h2
    simp only [List.length_map, List.length_zipIdx] at h1
    simp only [List.getElem_map, List.getElem_zipIdx, List.getElem_zipWith]
    rw [List.getElem?_append_right (by omega)]
    simp [show i < X.length by omega]

theorem clampRating_eq [IsStrictOrderedRing R] (v : R) :
    clampRating v = max (1 / 1000) (min (999 / 1000) v) := by
  have h1 : (1 / 1000 : R) ≤ 999 / 1000 := by norm_num
  unfold clampRating
  simp only
  by_cases h : v < 1 / 1000
  · rw [if_pos h, if_neg (not_lt.mpr h1), min_eq_right (h.le.trans h1), max_eq_left h.le]
  · rw [if_neg h]
    push Not at h
    by_cases h' : v > 999 / 1000
    · rw [if_pos h', min_eq_left h'.le, max_eq_right h1]
    · rw [if_neg h']
      push Not at h'
      rw [min_eq_right h', max_eq_right h]

theorem paretoPairs_decode (old X : List (Fin d → α)) :
    (paretoPairs old.length X (old ++ X)).map
        (fun p => ((old ++ X)[winner p]?, (old ++ X)[loser p]?)) = autoPrefs X (old ++ X) := by
  unfold paretoPairs autoPrefs
  rw [List.map_flatMap]
  have hX : X = X.zipIdx.map (·.1) := by simp
  conv_rhs => rw [hX, List.flatMap_map]
  rw [← hX]
  apply List.flatMap_congr
  rintro ⟨x, i⟩ hx
  rw [List.mem_zipIdx_iff_getElem?] at hx
  simp only [List.map_map]
  have hall : (old ++ X) = (old ++ X).zipIdx.map (·.1) := by simp
  conv_rhs => rw [hall, List.filter_map, List.map_map]
  apply List.map_congr_left
  rintro ⟨z, j⟩ hz
  have hz := (List.mem_filter.mp hz).1
  rw [List.mem_zipIdx_iff_getElem?] at hz
  simp only [Function.comp_apply, winner, loser, getDkScalar]
  simp only at hx hz
  norm_num
  rw [List.getElem?_append_right (by omega), hz]
  simpa using hx

theorem mem_paretoPairs (lenX : Nat) (X all : List (Fin d → α)) (p : Pair) :
    p ∈ paretoPairs lenX X all ↔ p.dk = -1 ∧ ∃ i x z, p.u = i + lenX ∧ X[i]? = some x ∧
      all[p.v]? = some z ∧ ∀ k, z k < x k := by
  unfold paretoPairs
  simp only [List.mem_flatMap, List.mem_map, List.mem_filter, Prod.exists, strictlyAbove,
    List.mem_zipIdx_iff_getElem?, decide_eq_true_eq, gt_iff_lt]
  have hdk : getDkScalar (1 : Int) 0 = -1 := by unfold getDkScalar; norm_num
  rw [hdk]
  constructor
  · rintro ⟨x, i, hx, z, j, ⟨hz, hk⟩, rfl⟩
    exact ⟨rfl, i, x, z, rfl, hx, hz, hk⟩
  · rintro ⟨h1, i, x, z, h2, hx, hz, hk⟩
    refine ⟨x, i, hx, z, p.v, ⟨hz, hk⟩, ?_⟩
    cases p
    simp_all

theorem not_strictlyAbove_self (hd : 0 < d) (x : Fin d → α) : ¬ ∀ k, x k < x k :=
  fun h => lt_irrefl _ (h ⟨0, hd⟩)

/-- With at most one point there is nothing to insert. -/
theorem paretoPairs_single (hd : 0 < d) (old X : List (Fin d → α)) (h : ¬ (old ++ X).length > 1) :
    paretoPairs old.length X (old ++ X) = [] := by
  rw [List.eq_nil_iff_forall_not_mem]
  intro p hp
  rw [mem_paretoPairs] at hp
  obtain ⟨_, i, x, z, _, hx, hz, hk⟩ := hp
  have hi := (List.getElem?_eq_some_iff.mp hx).1
  have hj := (List.getElem?_eq_some_iff.mp hz).1
  simp only [List.length_append] at h hj
  have h0 : old = [] := by
    apply List.eq_nil_of_length_eq_zero; omega
  subst h0
  have : i = p.v := by simp at *; omega
  subst this
  simp only [List.nil_append] at hz
  rw [hx] at hz
  simp only [Option.some.injEq] at hz
  subst hz
  exact not_strictlyAbove_self hd _ hk

theorem paretoPairs_inRange (old X : List (Fin d → α)) (p : Pair)
    (hp : p ∈ paretoPairs old.length X (old ++ X)) :
    p.u < (old ++ X).length ∧ p.v < (old ++ X).length := by
  rw [mem_paretoPairs] at hp
  obtain ⟨_, i, x, z, hu, hx, hz, _⟩ := hp
  refine ⟨?_, (List.getElem?_eq_some_iff.mp hz).1⟩
  have := (List.getElem?_eq_some_iff.mp hx).1
  simp only [List.length_append]; omega

theorem shift_if (ps : List Pair) (n : Nat) :
    (if n > 0 then ps.map (fun p => (⟨p.dk, p.u + n, p.v + n⟩ : Pair)) else ps) =
      ps.map fun p => ⟨p.dk, p.u + n, p.v + n⟩ := by
  split
  · rfl
  · have : n = 0 := by omega
    subst this; simp

theorem decode_old_rel (st : ModelState d α R) (hr : InRange st) (X : List (Fin d → α)) :
    (st.y.rel.getD []).map
        (fun p => ((st.X.getD [] ++ X)[winner p]?, (st.X.getD [] ++ X)[loser p]?)) =
      (decode st).prefs := old_pairs_decode _ _ _ hr.1

theorem decode_old_ord (st : ModelState d α R) (hr : InRange st) (X : List (Fin d → α)) :
    (st.y.ord.getD []).map (fun r => ((st.X.getD [] ++ X)[r.2]?, r.1)) = (decode st).ords :=
  old_ratings_decode _ _ _ hr.2.1

theorem decode_old_abs (st : ModelState d α R) (hr : InRange st) (X : List (Fin d → α)) :
    (st.y.abs.getD []).map (fun r => ((st.X.getD [] ++ X)[r.2]?, r.1)) = (decode st).rates :=
  old_ratings_decode _ _ _ hr.2.2

theorem addLabels_facts [IsStrictOrderedRing R]
    (st : ModelState d α R) (hr : InRange st) (X : List (Fin d → α)) (inp : AddInput R)
    (hdoc : Documented (Op.add X inp)) :
    ∃ y, addLabels st.y (st.X.getD []).length inp = .ok (some y) ∧
      (∀ p ∈ y.rel.getD [], p.u < (st.X.getD [] ++ X).length ∧ p.v < (st.X.getD [] ++ X).length) ∧
      (∀ r ∈ y.ord.getD [], r.2 < (st.X.getD [] ++ X).length) ∧
      (∀ r ∈ y.abs.getD [], r.2 < (st.X.getD [] ++ X).length) ∧
      (y.rel.getD []).map
        (fun p => ((st.X.getD [] ++ X)[winner p]?, (st.X.getD [] ++ X)[loser p]?)) =
        ((decode st).after false (Op.add X inp)).prefs ∧
      (y.ord.getD []).map (fun r => ((st.X.getD [] ++ X)[r.2]?, r.1)) =
        ((decode st).after false (Op.add X inp)).ords ∧
      (y.abs.getD []).map (fun r => ((st.X.getD [] ++ X)[r.2]?, r.1)) =
        ((decode st).after false (Op.add X inp)).rates := by
  have o1 := decode_old_rel st hr X
  have o2 := decode_old_ord st hr X
  have o3 := decode_old_abs st hr X
  obtain ⟨hr1, hr2, hr3⟩ := hr
  have hr1' : ∀ p ∈ st.y.rel.getD [], p.u < (st.X.getD [] ++ X).length ∧ p.v < (st.X.getD [] ++ X).length := by
    intro p hp
    have := hr1 p hp
    simp only [List.length_append]; omega
  have hr2' : ∀ r ∈ st.y.ord.getD [], r.2 < (st.X.getD [] ++ X).length := by
    intro r hr; have := hr2 r hr; simp only [List.length_append]; omega
  have hr3' : ∀ r ∈ st.y.abs.getD [], r.2 < (st.X.getD [] ++ X).length := by
    intro r hr; have := hr3 r hr; simp only [List.length_append]; omega
  cases inp with
  | pairs ps =>
    have hps : ∀ p ∈ ps, p.u < X.length ∧ p.v < X.length := hdoc
    unfold addLabels
    simp only [shift_if]
    by_cases he : (ps.map fun p => (⟨p.dk, p.u + (st.X.getD []).length, p.v + (st.X.getD []).length⟩ : Pair)).isEmpty = true
    · rw [if_pos he]
      have : ps = [] := by simpa using he
      subst this
      exact ⟨st.y, rfl, hr1', hr2', hr3', by simp [Facts.after, o1], by simp [Facts.after, o2],
        by simp [Facts.after, o3]⟩
    · rw [if_neg he]
      refine ⟨_, rfl, ?_, hr2', hr3', ?_, by simp [Facts.after, o2], by simp [Facts.after, o3]⟩
      · intro p hp
        simp only [appendOpt, Option.getD_some, List.mem_append, List.mem_map] at hp
        rcases hp with hp | ⟨q, hq, rfl⟩
        · exact hr1' p hp
        · have := hps q hq
          simp only [List.length_append]; omega
      · simp only [appendOpt, Option.getD_some, List.map_append, o1, shifted_pairs_decode]
        simp [Facts.after]
  | ordinalVec v =>
    obtain ⟨hl, hpos⟩ : v.length = X.length ∧ ∀ a ∈ v, 0 < a := hdoc
    unfold addLabels addOrd
    have hne : ¬ ((v.zipIdx.map fun (a, i) => (a, i + (st.X.getD []).length)).any fun r => decide (r.1 ≤ 0)) = true := by
      simp only [List.any_eq_true, List.mem_map, Prod.exists, decide_eq_true_eq, not_exists]
      rintro a i ⟨⟨b, j, hb, heq⟩, hle⟩
      have hmem : b ∈ v := by
        rw [List.mem_zipIdx_iff_getElem?] at hb
        exact List.mem_of_getElem? hb
      have := hpos b hmem
      simp only [Prod.mk.injEq] at heq
      omega
    simp only
    rw [if_neg hne]
    refine ⟨_, rfl, hr1', ?_, hr3', by simp [Facts.after, o1], ?_, by simp [Facts.after, o3]⟩
    · intro r hr
      simp only [appendOpt, Option.getD_some, List.mem_append, List.mem_map, Prod.exists] at hr
      rcases hr with hr | ⟨a, i, ha, rfl⟩
      · exact hr2' r hr
      · rw [List.mem_zipIdx_iff_getElem?] at ha
        have := (List.getElem?_eq_some_iff.mp ha).1
        simp only [List.length_append] at *; omega
    · simp only [appendOpt, Option.getD_some, List.map_append, o2]
      have := vec_ratings_decode (st.X.getD []) X v id hl
      simp only [id] at this
      simp [Facts.after, this]
  | absVec v =>
    obtain ⟨hl, hpos⟩ : v.length = X.length ∧ ∀ a ∈ v, 0 ≤ a ∧ a ≤ 1 := hdoc
    unfold addLabels addAbs
    have hne : ¬ (((v.zipIdx.map fun (a, i) => (a, i + (st.X.getD []).length)).any fun r => decide (r.1 < 0)) = true ∨
        ((v.zipIdx.map fun (a, i) => (a, i + (st.X.getD []).length)).any fun r => decide (r.1 > 1)) = true) := by
      simp only [List.any_eq_true, List.mem_map, Prod.exists, decide_eq_true_eq]
      rintro (⟨a, i, ⟨b, j, hb, heq⟩, hle⟩ | ⟨a, i, ⟨b, j, hb, heq⟩, hle⟩)
      all_goals
        have hmem : b ∈ v := by
          rw [List.mem_zipIdx_iff_getElem?] at hb
          exact List.mem_of_getElem? hb
        have hb2 := hpos b hmem
        simp only [Prod.mk.injEq] at heq
        obtain ⟨rfl, _⟩ := heq
      · exact absurd hb2.1 (not_le.mpr hle)
      · exact absurd hb2.2 (not_le.mpr hle)
    simp only
    rw [if_neg hne]
    refine ⟨_, rfl, hr1', hr2', ?_, by simp [Facts.after, o1], by simp [Facts.after, o2], ?_⟩
    · intro r hr
      simp only [appendOpt, Option.getD_some, List.mem_append, List.mem_map, Prod.exists] at hr
      rcases hr with hr | ⟨a, i, ⟨b, j, ha, heq⟩, rfl⟩
      · exact hr3' r hr
      · rw [List.mem_zipIdx_iff_getElem?] at ha
        have := (List.getElem?_eq_some_iff.mp ha).1
        simp only [Prod.mk.injEq] at heq
        simp only [List.length_append] at *; omega
    · simp only [appendOpt, Option.getD_some, List.map_append, o3]
      have := vec_ratings_decode (st.X.getD []) X v clampRating hl
      have h2 : (v.zipIdx.map fun (x : R × Nat) => ((x.1, x.2 + (st.X.getD []).length) : R × Nat)).map
          (fun r => (clampRating r.1, r.2)) =
          v.zipIdx.map fun (x : R × Nat) => (clampRating x.1, x.2 + (st.X.getD []).length) := by
        rw [List.map_map]; rfl
      rw [h2]
      rw [this]
      simp [Facts.after, clampRating_eq]
  | ordinalMat _ => exact hdoc.elim
  | absTuple _ => exact hdoc.elim
  | absOther => exact hdoc.elim
  | otherType => exact hdoc.elim

/-- The automatic-pair step as one append. -/
theorem pareto_step (pareto : Bool) (hd : pareto = true → 0 < d) (old X : List (Fin d → α))
    (y : Labels R) :
    let y' := if pareto = true ∧ (old ++ X).length > 1 then
        if (paretoPairs old.length X (old ++ X)).isEmpty then y
        else { y with rel := appendOpt y.rel (paretoPairs old.length X (old ++ X)) }
      else y
    y'.rel.getD [] = y.rel.getD [] ++ (if pareto then paretoPairs old.length X (old ++ X) else []) ∧
      y'.ord = y.ord ∧ y'.abs = y.abs := by
  intro y'
  cases pareto with
  | false => simp [y']
  | true =>
    have hd := hd rfl
    by_cases h : (old ++ X).length > 1
    · by_cases he : (paretoPairs old.length X (old ++ X)).isEmpty = true
      · have he' := List.isEmpty_iff.mp he
        simp only [y', h, he, and_self, if_true]
        simp [he']
      · simp only [y', h, he, and_self, if_true]
        simp [appendOpt]
    · have := paretoPairs_single hd old X h
      simp only [y', h, and_false, if_false, if_true, this]
      simp

/-- Effect of a documented `add` on state, facts and index ranges. -/
theorem modelAdd_facts [IsStrictOrderedRing R] (pareto : Bool) (hd : pareto = true → 0 < d)
    (st : ModelState d α R) (hr : InRange st) (X : List (Fin d → α)) (inp : AddInput R)
    (hdoc : Documented (Op.add X inp)) :
    (modelAdd pareto st X inp).2 = none ∧
    decode (modelAdd pareto st X inp).1 = (decode st).after pareto (Op.add X inp) ∧
    InRange (modelAdd pareto st X inp).1 ∧ (modelAdd pareto st X inp).1.optimized = false := by
  obtain ⟨y, hy, hy1, hy2, hy3, hy4, hy5, hy6⟩ := addLabels_facts st hr X inp hdoc
  obtain ⟨p1, p2, p3⟩ := pareto_step pareto hd (st.X.getD []) X y
  unfold modelAdd
  simp only [hy]
  refine ⟨trivial, ?_, ⟨?_, ?_, ?_⟩, trivial⟩
  · unfold decode
    simp only [Option.getD_some, p1, p2, p3, List.map_append, hy4, hy5, hy6]
    cases inp <;> cases pareto <;> simp [Facts.after, decode, paretoPairs_decode]
  · simp only [Option.getD_some, p1, List.mem_append]
    rintro p (hp | hp)
    · exact hy1 p hp
    · cases pareto with
      | false => simp at hp
      | true => exact paretoPairs_inRange _ _ p (by simpa using hp)
  · simp only [Option.getD_some, p2]; exact hy2
  · simp only [Option.getD_some, p3]; exact hy3

/-! Removal of unreferenced points -/

/-- The kept points. -/
def keptPts {P : Type*} (keep : Nat → Bool) (X : List P) : List P :=
  (X.zipIdx.filter fun q => keep q.2).map (·.1)

theorem keptPts_concat {P : Type*} (keep : Nat → Bool) (X : List P) (x : P) :
    keptPts keep (X ++ [x]) = keptPts keep X ++ if keep X.length then [x] else [] := by
  unfold keptPts
  rw [List.zipIdx_append, List.filter_append, List.map_append]
  congr 1
  simp only [List.zipIdx_singleton, zero_add]
  by_cases h : keep X.length <;> simp [h]

theorem keptPts_length {P : Type*} (keep : Nat → Bool) (X : List P) :
    (keptPts keep X).length = (List.range X.length).countP keep := by
  induction X using List.reverseRecOn with
  | nil => rfl
  | append_singleton X x ih =>
    rw [keptPts_concat, List.length_append, ih, List.length_append, List.length_singleton,
      List.range_succ, List.countP_append]
    by_cases h : keep X.length <;> simp [h]

theorem keptPts_get {P : Type*} (keep : Nat → Bool) (X : List P) (i : Nat) (hi : i < X.length)
    (hk : keep i = true) : (keptPts keep X)[(List.range i).countP keep]? = X[i]? := by
  induction X using List.reverseRecOn with
  | nil => simp at hi
  | append_singleton X x ih =>
    rw [keptPts_concat]
    by_cases h : i < X.length
    · rw [List.getElem?_append_left, List.getElem?_append_left h, ih h]
      have := ih h
      rw [List.getElem?_eq_getElem h] at this
      exact (List.getElem?_eq_some_iff.mp this).1
    · have : i = X.length := by simp at hi; omega
      subst this
      rw [List.getElem?_append_right (by rw [keptPts_length]), keptPts_length]
      simp [hk]

theorem sub_removedUpTo (ps : List Pair) (i : Nat) (hk : referenced ps i = true) :
    i - removedUpTo ps i = (List.range i).countP (referenced ps) := by
  unfold removedUpTo
  rw [← List.countP_eq_length_filter, List.range_succ, List.countP_append]
  have h1 : [i].countP (fun j => !referenced ps j) = 0 := by simp [hk]
  have h2 := List.length_eq_countP_add_countP (l := List.range i) (referenced ps)
  rw [List.length_range] at h2
  have h3 : (List.range i).countP (fun j => !referenced ps j) =
      (List.range i).countP (fun a => decide ¬referenced ps a = true) := by
    apply List.countP_congr; intro j _; simp
  omega

theorem referenced_of_mem {ps : List Pair} {p : Pair} (hp : p ∈ ps) :
    referenced ps p.u = true ∧ referenced ps p.v = true := by
  unfold referenced
  simp only [List.any_eq_true, decide_eq_true_eq]
  exact ⟨⟨p, hp, Or.inl rfl⟩, ⟨p, hp, Or.inr rfl⟩⟩

theorem reindex_decode {P : Type*} (X : List P) (ps : List Pair)
    (h : ∀ p ∈ ps, p.u < X.length ∧ p.v < X.length) :
    (ps.map fun p => (⟨p.dk, p.u - removedUpTo ps p.u, p.v - removedUpTo ps p.v⟩ : Pair)).map
        (fun p => ((keptPts (referenced ps) X)[winner p]?, (keptPts (referenced ps) X)[loser p]?)) =
      ps.map fun p => (X[winner p]?, X[loser p]?) := by
  rw [List.map_map]
  apply List.map_congr_left
  intro p hp
  obtain ⟨ru, rv⟩ := referenced_of_mem hp
  have hu := keptPts_get (referenced ps) X p.u (h p hp).1 ru
  have hv := keptPts_get (referenced ps) X p.v (h p hp).2 rv
  rw [← sub_removedUpTo ps _ ru] at hu
  rw [← sub_removedUpTo ps _ rv] at hv
  simp only [Function.comp_apply, winner, loser]
  split
  · rw [hu, hv]
  · rw [hu, hv]

theorem reindex_inRange {P : Type*} (X : List P) (ps : List Pair)
    (h : ∀ p ∈ ps, p.u < X.length ∧ p.v < X.length) (p : Pair) (hp : p ∈ ps) :
    p.u - removedUpTo ps p.u < (keptPts (referenced ps) X).length ∧
    p.v - removedUpTo ps p.v < (keptPts (referenced ps) X).length := by
  obtain ⟨ru, rv⟩ := referenced_of_mem hp
  have hu := keptPts_get (referenced ps) X p.u (h p hp).1 ru
  have hv := keptPts_get (referenced ps) X p.v (h p hp).2 rv
  rw [← sub_removedUpTo ps _ ru, List.getElem?_eq_getElem (h p hp).1] at hu
  rw [← sub_removedUpTo ps _ rv, List.getElem?_eq_getElem (h p hp).2] at hv
  exact ⟨(List.getElem?_eq_some_iff.mp hu).1, (List.getElem?_eq_some_iff.mp hv).1⟩

theorem keptPts_append {P : Type*} (keep : Nat → Bool) (A B : List P) (hA : ∀ i < A.length, keep i) :
    keptPts keep (A ++ B) = A ++ keptPts (fun i => keep (i + A.length)) B := by
  induction B using List.reverseRecOn with
  | nil =>
    simp only [List.append_nil]
    unfold keptPts
    rw [List.filter_eq_self.mpr]
    · simp
    · rintro ⟨a, i⟩ h
      rw [List.mem_zipIdx_iff_getElem?] at h
      exact hA i (List.getElem?_eq_some_iff.mp h).1
  | append_singleton B b ih =>
    rw [← List.append_assoc, keptPts_concat, keptPts_concat, ih, List.append_assoc]
    congr 3
    rw [List.length_append, Nat.add_comm]

theorem keptPts_eq_filterMap {P : Type*} (keep : Nat → Bool) (X : List P) :
    keptPts keep X = ((List.range X.length).filter keep).filterMap (X[·]?) := by
  induction X using List.reverseRecOn with
  | nil => rfl
  | append_singleton X x ih =>
    rw [keptPts_concat, ih, List.length_append, List.length_singleton, List.range_succ,
      List.filter_append, List.filterMap_append]
    congr 1
    · apply List.filterMap_congr
      intro i hi
      have := (List.mem_filter.mp hi).1
      rw [List.mem_range] at this
      rw [List.getElem?_append_left this]
    · by_cases h : keep X.length <;> simp [h]

theorem keptPts_eq_filter {P : Type*} (keep : Nat → Bool) (X : List P) (f : P → Bool)
    (h : ∀ (i : Nat) x, X[i]? = some x → keep i = f x) : keptPts keep X = X.filter f := by
  induction X using List.reverseRecOn with
  | nil => rfl
  | append_singleton X x ih =>
    rw [keptPts_concat, ih, List.filter_append]
    · rw [h X.length x (by simp)]
      by_cases hf : f x <;> simp [hf]
    · intro i z hz
      apply h i z
      rw [List.getElem?_append_left (List.getElem?_eq_some_iff.mp hz).1]
      exact hz

theorem modelAdd_X_prior (pareto : Bool) (st : ModelState d α R) (X : List (Fin d → α))
    (inp : AddInput R) :
    (modelAdd pareto st X inp).1.X = some (st.X.getD [] ++ X) ∧
    (modelAdd pareto st X inp).1.prior = st.prior := by
  unfold modelAdd
  simp only
  split <;> exact ⟨rfl, rfl⟩

/-- Later `add` calls keep a prior window that lies inside the stored points. -/
theorem getPriorPts_stable (pareto : Bool) (later : List (List (Fin d → α) × AddInput R)) :
    ∀ (st : ModelState d α R) (l : List (Fin d → α)) (a b : Nat), st.X = some l →
      st.prior = some (a, (b : Int)) → b ≤ l.length →
      getPriorPts (later.foldl (fun s x => (modelAdd pareto s x.1 x.2).1) st) =
        .ok (some ((l.take b).drop a)) := by
  induction later with
  | nil =>
    intro st l a b h1 h2 h3
    simp only [List.foldl_nil, getPriorPts, h1, h2, pySlice, Int.toNat_natCast]
    rw [if_neg (by omega)]
  | cons x xs ih =>
    intro st l a b h1 h2 h3
    rw [List.foldl_cons]
    obtain ⟨hx, hp⟩ := modelAdd_X_prior pareto st x.1 x.2
    rw [ih _ (l ++ x.1) a b (by rw [hx, h1]; rfl) (by rw [hp, h2]) (by simp; omega)]
    rw [List.take_append_of_le_length h3]

end Lop
