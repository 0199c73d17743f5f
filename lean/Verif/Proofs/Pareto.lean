import Verif.Model.Pareto
import Verif.Spec.Pareto
import Mathlib.Data.List.Sort
import Mathlib.Data.List.Range
import Mathlib.Order.WellFounded

namespace Lop

open Lop.Spec

variable {α : Type*} [LinearOrder α] {d : Nat}

theorem applyMask_map {β γ : Type*} (f : β → γ) (m : List Bool) (l : List β) :
    applyMask m (l.map f) = (applyMask m l).map f := by
  induction m generalizing l with
  | nil => simp [applyMask]
  | cons b bs ih =>
    cases l with
    | nil => simp [applyMask]
    | cons x xs => cases b <;> simp [applyMask, ih]

theorem applyMask_append {β : Type*} (m1 m2 : List Bool) (l1 l2 : List β) (h : m1.length = l1.length) :
    applyMask (m1 ++ m2) (l1 ++ l2) = applyMask m1 l1 ++ applyMask m2 l2 := by
  induction m1 generalizing l1 with
  | nil => cases l1 <;> simp_all [applyMask]
  | cons b bs ih =>
    cases l1 with
    | nil => simp at h
    | cons x xs =>
      simp only [List.length_cons, Nat.add_right_cancel_iff] at h
      cases b <;> simp [applyMask, ih xs h]

theorem applyMask_mapFilter {β : Type*} (p : β → Bool) (l : List β) :
    applyMask (l.map p) l = l.filter p := by
  induction l with
  | nil => rfl
  | cons x xs ih =>
    simp only [List.map_cons, applyMask, List.filter_cons, ih]

/-- The mask splits around the pivot. -/
theorem paretoMask_split (pre post : List (Fin d → α)) (pv : Fin d → α) :
    paretoMask (pre ++ pv :: post) pre.length pv
      = pre.map (fun v => decide (∃ k, v k > pv k)) ++ true :: post.map (fun v => decide (∃ k, v k > pv k)) := by
  unfold paretoMask
  rw [List.mapIdx_append, List.mapIdx_cons]
  congr 1
  · apply List.ext_getElem
    · simp
    · intro i h1 h2
      simp only [List.length_mapIdx] at h1
      simp only [List.getElem_mapIdx, List.getElem_map]
      rw [if_neg (by omega)]
  · congr 1
    · simp
    · apply List.ext_getElem
      · simp
      · intro i h1 h2
        simp only [List.length_mapIdx] at h1
        simp only [List.getElem_mapIdx, List.getElem_map]
        rw [if_neg (by omega)]

/-- `q` is made redundant by `p` (`Prod.fst` is the original index, `Prod.snd` the value). -/
def Redundant (q p : Nat × (Fin d → α)) : Prop := q.2 ≤ p.2 ∧ (q.2 ≠ p.2 ∨ p.1 < q.1)

theorem Redundant.trans {a b c : Nat × (Fin d → α)} (h1 : Redundant a b) (h2 : Redundant b c) :
    Redundant a c := by
  refine ⟨h1.1.trans h2.1, ?_⟩
  by_cases h : a.2 = c.2
  · right
    have hab : a.2 = b.2 := le_antisymm h1.1 (h ▸ h2.1)
    have hbc : b.2 = c.2 := hab ▸ h
    have := h1.2.resolve_left (not_not.mpr hab)
    have := h2.2.resolve_left (not_not.mpr hbc)
    omega
  · exact Or.inl h

theorem Redundant.irrefl (a : Nat × (Fin d → α)) : ¬ Redundant a a := by
  rintro ⟨_, h | h⟩
  · exact h rfl
  · exact lt_irrefl _ h

/-- Loop invariant. -/
structure ParetoInv (orig pre rest : List (Nat × (Fin d → α))) : Prop where
  sub : (pre ++ rest).Sublist orig
  gone : ∀ q ∈ orig, q ∉ pre ++ rest → ∃ p ∈ pre ++ rest, Redundant q p
  done : ∀ p ∈ pre, ∀ q ∈ pre ++ rest, q ≠ p → ¬ q.2 ≤ p.2

theorem not_exists_gt_iff (v p : Fin d → α) : (¬ ∃ k, v k > p k) ↔ v ≤ p := by
  push Not
  rfl

theorem ParetoInv.step {orig pre post : List (Nat × (Fin d → α))} {p : Nat × (Fin d → α)}
    (hs : orig.Pairwise (fun a b => a.1 < b.1)) (h : ParetoInv orig pre (p :: post)) :
    ParetoInv orig (pre.filter (fun q => decide (∃ k, q.2 k > p.2 k)) ++ [p])
      (post.filter (fun q => decide (∃ k, q.2 k > p.2 k))) := by
  set f : Nat × (Fin d → α) → Bool := fun q => decide (∃ k, q.2 k > p.2 k) with hf
  have hmem : ∀ q, q ∈ (pre.filter f ++ [p]) ++ post.filter f → q ∈ pre ++ p :: post := by
    intro q hq
    simp only [List.append_assoc, List.mem_append, List.mem_filter, List.mem_singleton] at hq
    simp only [List.mem_append, List.mem_cons]
    tauto
  have hpw := hs.sublist h.sub
  have hle : ∀ q ∈ pre ++ p :: post, q ∉ (pre.filter f ++ [p]) ++ post.filter f → q ≠ p ∧ q.2 ≤ p.2 := by
    intro q hq hn
    simp only [List.append_assoc, List.mem_append, List.mem_filter, List.mem_singleton] at hn
    simp only [List.mem_append, List.mem_cons] at hq
    have hfq : ¬ f q = true := by tauto
    rw [hf] at hfq
    simp only [decide_eq_true_eq] at hfq
    exact ⟨by tauto, (not_exists_gt_iff _ _).mp hfq⟩
  have hred : ∀ q ∈ pre ++ p :: post, q ∉ (pre.filter f ++ [p]) ++ post.filter f → Redundant q p := by
    intro q hq hn
    obtain ⟨hne, hqp⟩ := hle q hq hn
    refine ⟨hqp, ?_⟩
    by_cases he : q.2 = p.2
    · right
      rcases List.mem_append.mp hq with hq' | hq'
      · exact absurd he.ge (h.done q hq' p (by simp) (Ne.symm hne))
      · rcases List.mem_cons.mp hq' with h0 | hq'
        · exact absurd h0 hne
        · have := (List.pairwise_append.mp hpw).2.1
          exact (List.pairwise_cons.mp this).1 q hq'
    · exact Or.inl he
  refine ⟨?_, ?_, ?_⟩
  · refine List.Sublist.trans ?_ h.sub
    rw [List.append_assoc]
    exact List.Sublist.append List.filter_sublist (List.Sublist.cons_cons _ List.filter_sublist)
  · intro q hq hn
    by_cases hq' : q ∈ pre ++ p :: post
    · exact ⟨p, by simp, hred q hq' hn⟩
    · obtain ⟨r, hr, hqr⟩ := h.gone q hq hq'
      by_cases hr' : r ∈ (pre.filter f ++ [p]) ++ post.filter f
      · exact ⟨r, hr', hqr⟩
      · exact ⟨p, by simp, hqr.trans (hred r hr hr')⟩
  · intro a ha q hq hne
    rcases List.mem_append.mp ha with ha | ha
    · exact h.done a (List.mem_filter.mp ha).1 q (hmem q hq) hne
    · rw [List.mem_singleton] at ha
      subst ha
      have hfq : f q = true := by
        simp only [List.append_assoc, List.mem_append, List.mem_filter, List.mem_singleton] at hq
        tauto
      rw [hf] at hfq
      simp only [decide_eq_true_eq] at hfq
      intro hc
      exact (not_exists_gt_iff _ _).mpr hc hfq

theorem paretoLoop_inv {orig : List (Nat × (Fin d → α))}
    (hs : orig.Pairwise (fun a b => a.1 < b.1)) (n : Nat) :
    ∀ pre rest : List (Nat × (Fin d → α)), rest.length = n → ParetoInv orig pre rest →
      ∃ fin, ParetoInv orig fin [] ∧
        paretoLoop ((pre ++ rest).map Prod.fst) ((pre ++ rest).map Prod.snd) pre.length = fin.map Prod.fst := by
  induction n using Nat.strong_induction_on with
  | _ n ih =>
    intro pre rest hn hinv
    cases rest with
    | nil =>
      refine ⟨pre, hinv, ?_⟩
      rw [paretoLoop]
      simp
    | cons p post =>
      have hstep := hinv.step hs
      have hlen : (post.filter (fun q => decide (∃ k, q.2 k > p.2 k))).length < n := by
        refine lt_of_le_of_lt (List.length_filter_le _ _) ?_
        simp at hn
        omega
      obtain ⟨fin, h1, h2⟩ := ih _ hlen _ _ rfl hstep
      refine ⟨fin, h1, ?_⟩
      rw [← h2, paretoLoop]
      have hlt : pre.length < (List.map Prod.snd (pre ++ p :: post)).length := by simp
      rw [dif_pos hlt]
      have hpv : (List.map Prod.snd (pre ++ p :: post))[pre.length] = p.2 := by
        simp
      have hmask : paretoMask (List.map Prod.snd (pre ++ p :: post)) pre.length p.2
          = pre.map (fun q => decide (∃ k, q.2 k > p.2 k)) ++
            true :: post.map (fun q => decide (∃ k, q.2 k > p.2 k)) := by
        have := paretoMask_split (pre.map Prod.snd) (post.map Prod.snd) p.2
        simp only [List.length_map, List.map_map] at this
        simp only [List.map_append, List.map_cons]
        rw [this]
        rfl
      simp only [hpv, hmask]
      have happ : applyMask (pre.map (fun q => decide (∃ k, q.2 k > p.2 k)) ++
            true :: post.map (fun q => decide (∃ k, q.2 k > p.2 k))) (pre ++ p :: post)
          = (pre.filter (fun q => decide (∃ k, q.2 k > p.2 k)) ++ [p]) ++
            post.filter (fun q => decide (∃ k, q.2 k > p.2 k)) := by
        rw [applyMask_append _ _ _ _ (by simp), applyMask_mapFilter]
        simp only [applyMask, ↓reduceIte, List.append_assoc, List.cons_append, List.nil_append]
        rw [applyMask_mapFilter]
      rw [applyMask_map, applyMask_map, happ]
      congr 1
      rw [List.take_left' (by simp)]
      simp only [List.length_append, List.length_singleton]
      congr 1
      rw [← applyMask_mapFilter, length_applyMask _ _ (by simp)]

/-- Items of the initial list: index and row. -/
def indexed (vals : List (Fin d → α)) : List (Nat × (Fin d → α)) :=
  (List.range vals.length).zip vals

theorem mem_indexed {vals : List (Fin d → α)} {q : Nat × (Fin d → α)} :
    q ∈ indexed vals ↔ vals[q.1]? = some q.2 := by
  unfold indexed
  rw [List.mem_iff_getElem?]
  constructor
  · rintro ⟨i, hi⟩
    rw [List.getElem?_zip_eq_some] at hi
    obtain ⟨h1, h2⟩ := hi
    rw [List.getElem?_range] at h1
    · simp at h1; rw [← h1]; exact h2
    · by_contra hc
      rw [List.getElem?_eq_none (by simp; omega)] at h1
      simp at h1
  · intro h
    refine ⟨q.1, ?_⟩
    rw [List.getElem?_zip_eq_some]
    refine ⟨?_, h⟩
    rw [List.getElem?_range]
    exact (List.getElem?_eq_some_iff.mp h).1

theorem indexed_sorted (vals : List (Fin d → α)) :
    (indexed vals).Pairwise (fun a b => a.1 < b.1) := by
  have : ((indexed vals).map Prod.fst).Pairwise (· < ·) := by
    unfold indexed
    rw [List.map_fst_zip (by simp)]
    exact List.pairwise_lt_range
  exact List.pairwise_map.mp this

theorem getPareto_inv (vals : List (Fin d → α)) :
    ∃ fin, ParetoInv (indexed vals) fin [] ∧ getPareto vals = fin.map Prod.fst := by
  have h0 : ParetoInv (indexed vals) [] (indexed vals) :=
    ⟨by simp, fun q hq hn => absurd (by simpa using hq) hn, by simp⟩
  obtain ⟨fin, h1, h2⟩ := paretoLoop_inv (indexed_sorted vals) _ [] _ rfl h0
  refine ⟨fin, h1, ?_⟩
  rw [← h2]
  unfold getPareto indexed
  rw [List.nil_append, List.map_fst_zip (by simp), List.map_snd_zip (by simp)]
  rfl

end Lop
