import Verif.Spec.Hyper
import Mathlib.Tactic.Linarith
import Mathlib.Tactic.Ring
import Mathlib.Tactic.FieldSimp
import Mathlib.Tactic.Positivity
import Mathlib.Algebra.Order.Group.Abs
import Mathlib.Algebra.Order.Field.Basic

/-! Helper lemmas for hyper-parameter vectors. -/

namespace Lop

open Spec

section kernel
variable {R P : Type}

/-- The tunable fields of a leaf in order. -/
theorem leaf_getParam (k : KLeaf R P) :
    k.getParam.map some = (List.range (arity k)).map (field k) := by
  cases k <;> rfl

theorem leaf_len (k : KLeaf R P) : k.getParam.length = arity k := by cases k <;> rfl

theorem leaf_len' (k : KLeaf R P) : k.len = arity k := by cases k <;> rfl

theorem leaf_set (k : KLeaf R P) (x : List R) (h : arity k ≤ x.length) :
    ∃ k', k.setParam x = .ok k' ∧ k'.getParam = x.take (arity k) ∧ SameKind k k' := by
  cases k <;> simp only [arity] at h
  all_goals
    rcases x with _ | ⟨a, _ | ⟨b, _ | ⟨c, r⟩⟩⟩ <;>
      simp_all [KLeaf.setParam, KLeaf.getParam, SameKind, arity]

theorem leaf_set_short (k : KLeaf R P) (x : List R) (h : x.length < arity k) :
    k.setParam x = .error .indexError := by
  cases k <;> simp only [arity] at h
  all_goals
    rcases x with _ | ⟨a, _ | ⟨b, _ | ⟨c, r⟩⟩⟩ <;>
      first
        | (simp only [List.length_cons, List.length_nil] at h; omega)
        | rfl

theorem leaf_get_set (k : KLeaf R P) (r : List R) : k.setParam (k.getParam ++ r) = .ok k := by
  cases k <;> rfl

theorem sameKind_refl (k : KLeaf R P) : SameKind k k := by cases k <;> simp [SameKind]

theorem sameKind_arity {k k' : KLeaf R P} (h : SameKind k k') : arity k' = arity k := by
  cases k <;> cases k' <;> simp_all [SameKind, arity]

theorem expr_len (k : KExpr R P) : k.getParam.length = k.len := by
  induction k with
  | leaf k => simp [KExpr.getParam, KExpr.len, leaf_len, leaf_len']
  | dual op a b iha ihb => simp [KExpr.getParam, KExpr.len, iha, ihb]

theorem expr_getParam (k : KExpr R P) : k.getParam = (leaves k).flatMap KLeaf.getParam := by
  induction k with
  | leaf k => simp [KExpr.getParam, leaves]
  | dual op a b iha ihb => simp [KExpr.getParam, leaves, iha, ihb]

theorem expr_set (k : KExpr R P) (x : List R) (h : k.len ≤ x.length) :
    ∃ k', k.setParam x = .ok k' ∧ k'.getParam = x.take k.len ∧ SameTree k k' := by
  induction k generalizing x with
  | leaf k =>
    obtain ⟨k', h1, h2, h3⟩ := leaf_set k x (by simpa [KExpr.len, leaf_len'] using h)
    exact ⟨.leaf k', by simp [KExpr.setParam, h1, Except.map], by
      simpa [KExpr.getParam, KExpr.len, leaf_len'] using h2, h3⟩
  | dual op a b iha ihb =>
    simp only [KExpr.len] at h
    obtain ⟨a', ha1, ha2, ha3⟩ := iha (x.take a.getParam.length) (by
      simp [expr_len]; omega)
    obtain ⟨b', hb1, hb2, hb3⟩ := ihb (x.drop a.getParam.length) (by
      simp [expr_len]; omega)
    refine ⟨.dual op a' b', by simp [KExpr.setParam, ha1, hb1], ?_, rfl, ha3, hb3⟩
    simp only [KExpr.getParam, ha2, hb2, KExpr.len, expr_len, List.take_take, min_self]
    rw [List.take_add]

theorem expr_set_short (k : KExpr R P) (x : List R) (h : x.length < k.len) :
    k.setParam x = .error .indexError := by
  induction k generalizing x with
  | leaf k =>
    simp [KExpr.setParam, leaf_set_short k x (by simpa [KExpr.len, leaf_len'] using h), Except.map]
  | dual op a b iha ihb =>
    simp only [KExpr.len] at h
    simp only [KExpr.setParam]
    by_cases hx : x.length < a.len
    · rw [iha _ (by simp [expr_len]; omega)]
    · obtain ⟨a', ha1, -, -⟩ := expr_set a (x.take a.getParam.length) (by simp [expr_len]; omega)
      rw [ha1]
      simp only
      rw [ihb _ (by simp [expr_len]; omega)]

theorem expr_get_set (k : KExpr R P) (r : List R) : k.setParam (k.getParam ++ r) = .ok k := by
  induction k generalizing r with
  | leaf k => simp [KExpr.setParam, KExpr.getParam, leaf_get_set, Except.map]
  | dual op a b iha ihb =>
    have h1 := iha []
    simp only [List.append_nil] at h1
    simp [KExpr.setParam, KExpr.getParam, List.append_assoc, h1, ihb]

theorem sameTree_leaves {k k' : KExpr R P} (h : SameTree k k') :
    List.Forall₂ SameKind (leaves k) (leaves k') := by
  induction k generalizing k' with
  | leaf k => cases k' with
    | leaf k' => simpa [leaves, SameTree] using h
    | dual op a b => simp [SameTree] at h
  | dual op a b iha ihb => cases k' with
    | leaf k' => simp [SameTree] at h
    | dual op' a' b' =>
      obtain ⟨-, h1, h2⟩ := h
      exact List.rel_append (iha h1) (ihb h2)

theorem sameTree_len {k k' : KExpr R P} (h : SameTree k k') : k'.len = k.len := by
  induction k generalizing k' with
  | leaf k => cases k' with
    | leaf k' => simpa [KExpr.len, leaf_len'] using sameKind_arity (k := k) (k' := k') h
    | dual op a b => simp [SameTree] at h
  | dual op a b iha ihb => cases k' with
    | leaf k' => simp [SameTree] at h
    | dual op' a' b' =>
      obtain ⟨-, h1, h2⟩ := h
      simp [KExpr.len, iha h1, ihb h2]

theorem kern_slots_congr {l l' : List (KLeaf R P)} (h : List.Forall₂ SameKind l l') (n : Nat) :
    ((l'.zipIdx n).flatMap fun (k, i) => (List.range (arity k)).map fun j => Slot.kern i j) =
      (l.zipIdx n).flatMap fun (k, i) => (List.range (arity k)).map fun j => Slot.kern i j := by
  induction h generalizing n with
  | nil => rfl
  | cons h _ ih => simp [List.zipIdx_cons, ih, sameKind_arity h]

theorem field_none (k : KLeaf R P) (j : Nat) (h : arity k ≤ j) : field k j = none := by
  cases k <;> simp only [arity] at h <;>
    (rcases j with _ | _ | _ | j <;> first | omega | rfl)

theorem kern_field_none {l l' : List (KLeaf R P)} (h : List.Forall₂ SameKind l l') (i j : Nat)
    (hn : ∀ k : KLeaf R P, (k, i) ∈ l.zipIdx → arity k ≤ j) :
    ((l'[i]?).bind fun k => field k j) = (l[i]?).bind fun k => field k j := by
  have hlen := h.length_eq
  by_cases hi : i < l.length
  · have hk := List.forall₂_iff_get.1 h |>.2 i hi (by omega)
    simp only [List.get_eq_getElem] at hk
    rw [List.getElem?_eq_getElem hi, List.getElem?_eq_getElem (by omega)]
    simp only [Option.bind_some]
    have hj : arity l[i] ≤ j := hn l[i] (List.mem_zipIdx_iff_getElem?.2 (by simp [hi]))
    rw [field_none _ _ hj, field_none _ _ (by rw [sameKind_arity hk]; exact hj)]
  · rw [List.getElem?_eq_none (by omega), List.getElem?_eq_none (by omega)]

/-! objects -/

theorem ref_getParam (heap : Nat → KLeaf R P) (r : KRef) :
    r.getParam heap = (r.resolve heap).getParam := by
  induction r with
  | leaf i => rfl
  | dual op a b iha ihb => simp [KRef.getParam, KRef.resolve, KExpr.getParam, iha, ihb]

theorem resolve_congr {heap heap' : Nat → KLeaf R P} {r : KRef}
    (h : ∀ i ∈ addrs r, heap i = heap' i) : r.resolve heap = r.resolve heap' := by
  induction r with
  | leaf i => simp [KRef.resolve, h i (by simp [addrs])]
  | dual op a b iha ihb =>
    simp only [addrs, List.mem_append] at h
    simp [KRef.resolve, iha fun i hi => h i (.inl hi), ihb fun i hi => h i (.inr hi)]

theorem ref_set_frame {heap heap' : Nat → KLeaf R P} {r : KRef} {x : List R}
    (h : r.setParam heap x = .ok heap') : ∀ i ∉ addrs r, heap' i = heap i := by
  induction r generalizing heap heap' x with
  | leaf j =>
    intro i hi
    simp only [addrs, List.mem_singleton] at hi
    simp only [KRef.setParam] at h
    cases hk : (heap j).setParam x with
    | error e => simp [hk, Except.map] at h
    | ok k =>
      simp only [hk, Except.map, Except.ok.injEq] at h
      subst h
      simp [Function.update_of_ne hi]
  | dual op a b iha ihb =>
    intro i hi
    simp only [addrs, List.mem_append, not_or] at hi
    simp only [KRef.setParam] at h
    split at h
    · simp at h
    · rename_i h1 heq
      rw [ihb h i hi.2, iha heq i hi.1]

theorem ref_set_refines (heap : Nat → KLeaf R P) (r : KRef) (x : List R) (hn : (addrs r).Nodup) :
    (r.setParam heap x).map (fun h => r.resolve h) = (r.resolve heap).setParam x := by
  induction r generalizing heap x with
  | leaf i =>
    simp only [KRef.setParam, KRef.resolve, KExpr.setParam]
    cases (heap i).setParam x <;> simp [Except.map]
  | dual op a b iha ihb =>
    simp only [addrs, List.nodup_append] at hn
    obtain ⟨hna, hnb, hd⟩ := hn
    simp only [KRef.setParam, KRef.resolve, KExpr.setParam, ref_getParam]
    have h1 := iha heap (x.take (a.resolve heap).getParam.length) hna
    cases ha : a.setParam heap (x.take (a.resolve heap).getParam.length) with
    | error e =>
      rw [ha] at h1
      simp only [Except.map] at h1
      rw [← h1]
      rfl
    | ok heap1 =>
      rw [ha] at h1
      simp only [Except.map] at h1
      rw [← h1]
      simp only
      have hb0 : b.resolve heap = b.resolve heap1 := resolve_congr fun i hi =>
        (ref_set_frame ha i (fun hia => hd i hia i hi rfl)).symm
      rw [hb0, ← ihb heap1 (x.drop (a.resolve heap).getParam.length) hnb]
      cases hb : b.setParam heap1 (x.drop (a.resolve heap).getParam.length) with
      | error e => rfl
      | ok heap2 =>
        simp only [Except.map]
        have : a.resolve heap2 = a.resolve heap1 := resolve_congr fun i hi =>
          ref_set_frame hb i (fun hib => hd i hi i hib rfl)
        rw [this]

end kernel

section ordinal
variable {R : Type} [Field R] [LinearOrder R]

theorem linspace0_length (b : R) (m : Nat) : (linspace0 b m).length = m := by
  unfold linspace0; split <;> simp_all

theorem linspace0_get (b : R) (m i : Nat) (hi : i < m) :
    (linspace0 b m)[i]? = some ((i : R) * (b / ((m : R) - 1))) := by
  unfold linspace0; split
  · rename_i h
    subst h
    have : i = 0 := by omega
    subst this; simp
  · simp [hi]

theorem setB_scalar (o : OrdHyper R) (b : R) (hn : 1 ≤ o.n) :
    o.setB (.scalar b) =
      .ok { o with b := [.neg] ++ (linspace0 |b| (o.n - 1)).map .fin ++ [.pos] } := by
  simp [OrdHyper.setB, show o.n ≠ 0 by omega]

/-- Boundaries produced from a scalar. -/
def cuts (b : R) (n : Nat) : List (Bnd R) := [.neg] ++ (linspace0 |b| (n - 1)).map .fin ++ [.pos]

theorem cuts_length (b : R) (n : Nat) (hn : 1 ≤ n) : (cuts b n).length = n + 1 := by
  simp [cuts, linspace0_length]; omega

theorem cuts_zero (b : R) (n : Nat) : (cuts b n)[0]? = some .neg := by simp [cuts]

theorem cuts_last (b : R) (n : Nat) (hn : 1 ≤ n) : (cuts b n)[n]? = some .pos := by
  simp only [cuts, List.singleton_append, List.cons_append, List.nil_append]
  obtain ⟨m, rfl⟩ : ∃ m, n = m + 1 := ⟨n - 1, by omega⟩
  rw [List.getElem?_cons_succ, List.getElem?_append_right (by simp [linspace0_length])]
  simp [linspace0_length]

theorem cuts_mid (b : R) (n i : Nat) (h1 : 1 ≤ i) (h2 : i < n) :
    (cuts b n)[i]? = some (.fin (((i : R) - 1) * (|b| / ((n : R) - 2)))) := by
  simp only [cuts, List.singleton_append, List.cons_append, List.nil_append]
  obtain ⟨m, rfl⟩ : ∃ m, i = m + 1 := ⟨i - 1, by omega⟩
  rw [List.getElem?_cons_succ, List.getElem?_append_left (by simp [linspace0_length]; omega)]
  rw [List.getElem?_map, linspace0_get _ _ _ (by omega)]
  have : (((n - 1 : Nat) : R) - 1) = (n : R) - 2 := by
    rw [Nat.cast_sub (by omega)]; push_cast; ring
  simp [this]

theorem getHyper_of_top (o : OrdHyper R) {r : R} (h2 : 2 ≤ o.b.length)
    (h : o.b[o.b.length - 2]? = some (.fin r)) : o.getHyper = .ok [o.sigma, r] := by
  unfold OrdHyper.getHyper
  have h3 : o.b.reverse[1]? = some (.fin r) := by
    rw [List.getElem?_reverse (by omega)]
    rw [show o.b.length - 1 - 1 = o.b.length - 2 by omega]; exact h
  rcases hr : o.b.reverse with _ | ⟨a, _ | ⟨c, l⟩⟩
  · rw [hr] at h3; simp at h3
  · rw [hr] at h3; simp at h3
  · rw [hr] at h3
    simp only [List.getElem?_cons_succ, List.getElem?_cons_zero, Option.some.injEq] at h3
    subst h3; rfl

theorem getHyper_top (o : OrdHyper R) {h : List R} (hh : o.getHyper = .ok h) :
    ∃ r, ordTop o = some r ∧ h = [o.sigma, r] := by
  unfold OrdHyper.getHyper at hh
  rcases hr : o.b.reverse with _ | ⟨a, _ | ⟨c, l⟩⟩
  · rw [hr] at hh; simp at hh
  · rw [hr] at hh; simp at hh
  · rw [hr] at hh
    cases c with
    | neg => simp at hh
    | pos => simp at hh
    | fin r =>
      simp only [Except.ok.injEq] at hh
      refine ⟨r, ?_, hh.symm⟩
      have : o.b = l.reverse ++ [.fin r, a] := by
        have := congrArg List.reverse hr
        simpa using this
      simp [ordTop, this]

theorem getHyper_of_ordTop (o : OrdHyper R) {r : R} (h : ordTop o = some r)
    (h2 : 2 ≤ o.b.length) : o.getHyper = .ok [o.sigma, r] := by
  unfold ordTop at h
  split at h
  · rename_i r' heq
    simp only [Option.some.injEq] at h
    subst h
    exact getHyper_of_top o h2 heq
  · simp at h

variable [IsStrictOrderedRing R]

theorem cuts_top (b : R) (n : Nat) (hn : 3 ≤ n) : (cuts b n)[n - 1]? = some (.fin |b|) := by
  rw [cuts_mid b n (n - 1) (by omega) (by omega)]
  have h : ((n : R) - 2) ≠ 0 := by
    have : (3 : R) ≤ n := by exact_mod_cast hn
    intro h0; linarith
  rw [Nat.cast_sub (by omega)]
  congr 2
  push_cast
  rw [show ((n : R) - 1 - 1) = n - 2 by ring]
  field_simp

theorem cuts_uniform (o : OrdHyper R) (b : R) (hn : 2 ≤ o.n) :
    Uniform { o with b := cuts b o.n } := by
  by_cases h2 : o.n = 2
  · refine ⟨0, le_refl _, fun _ => rfl, cuts_length b _ (by omega), cuts_zero b _,
      cuts_last b _ (by omega), ?_⟩
    intro i h1 hi
    simp only at hi ⊢
    rw [cuts_mid b _ i h1 hi, h2]
    norm_num
  · exact ⟨|b|, abs_nonneg _, fun h => absurd h h2, cuts_length b _ (by omega), cuts_zero b _,
      cuts_last b _ (by omega), fun i h1 hi => cuts_mid b _ i h1 hi⟩

theorem uniform_eq_cuts {o : OrdHyper R} (hn : 2 ≤ o.n) (h : Uniform o) :
    ∃ top : R, 0 ≤ top ∧ (o.n = 2 → top = 0) ∧ o.b = cuts top o.n := by
  obtain ⟨top, h0, hz, hl, hb0, hbn, hmid⟩ := h
  refine ⟨top, h0, hz, List.ext_getElem? fun i => ?_⟩
  rcases Nat.lt_trichotomy i o.n with hi | hi | hi
  · rcases Nat.eq_zero_or_pos i with rfl | h1
    · rw [hb0, cuts_zero]
    · rw [hmid i h1 hi, cuts_mid _ _ _ h1 hi, abs_of_nonneg h0]
  · rw [hi, hbn, cuts_last _ _ (by omega)]
  · rw [List.getElem?_eq_none (by omega), List.getElem?_eq_none (by
      rw [cuts_length _ _ (by omega)]; omega)]

theorem cuts_getHyper (o : OrdHyper R) (b : R) (hn : 3 ≤ o.n) :
    ({ o with b := cuts b o.n } : OrdHyper R).getHyper = .ok [o.sigma, |b|] := by
  refine getHyper_of_top _ (by simp [cuts_length b o.n (by omega)]; omega) ?_
  simp only [cuts_length b o.n (by omega)]
  rw [show o.n + 1 - 2 = o.n - 1 by omega]
  exact cuts_top b _ hn

theorem cuts_getHyper_two (o : OrdHyper R) (b : R) (hn : o.n = 2) :
    ({ o with b := cuts b o.n } : OrdHyper R).getHyper = .ok [o.sigma, 0] := by
  refine getHyper_of_top _ (by simp [cuts_length b o.n (by omega)]; omega) ?_
  simp only [cuts_length b o.n (by omega)]
  rw [show o.n + 1 - 2 = 1 by omega, cuts_mid b _ 1 (by omega) (by omega)]
  simp

end ordinal


section vector
variable {R P : Type} [Field R] [LinearOrder R]

theorem pref_set (p : PrefHyper R) (x : List R) (h : x.length = p.getHyper.length) :
    ∃ p', p.setHyper x = .ok p' ∧ p'.getHyper = x ∧ p'.optimize = p.optimize ∧
      (p.optimize = false → p' = p) := by
  rcases p with ⟨s, _ | _⟩
  · simp only [PrefHyper.getHyper, Bool.false_eq_true, if_false, List.length_nil,
      List.length_eq_zero_iff] at h
    subst h
    exact ⟨⟨s, false⟩, rfl, rfl, rfl, fun _ => rfl⟩
  · rcases x with _ | ⟨a, _ | ⟨b, r⟩⟩ <;> simp [PrefHyper.getHyper] at h
    exact ⟨⟨a, true⟩, rfl, rfl, rfl, by simp⟩

theorem abs_set (p : AbsHyper R) (x : List R) (h : x.length = p.getHyper.length) :
    ∃ p', p.setHyper x = .ok p' ∧ p'.getHyper = x ∧ p'.optimize = p.optimize ∧
      p'.vOnly = p.vOnly ∧ (p.optimize = false → p' = p) ∧ (p.vOnly = true → p'.sigma = p.sigma) := by
  rcases p with ⟨s, v, _ | _, vo⟩
  · simp only [AbsHyper.getHyper, Bool.false_eq_true, if_false, List.length_nil,
      List.length_eq_zero_iff] at h
    subst h
    exact ⟨⟨s, v, false, vo⟩, rfl, rfl, rfl, rfl, fun _ => rfl, fun _ => rfl⟩
  · cases vo
    · rcases x with _ | ⟨a, _ | ⟨b, _ | ⟨c, r⟩⟩⟩ <;> simp [AbsHyper.getHyper] at h
      exact ⟨⟨a, b, true, false⟩, rfl, rfl, rfl, rfl, by simp, by simp⟩
    · rcases x with _ | ⟨a, _ | ⟨b, r⟩⟩ <;> simp [AbsHyper.getHyper] at h
      exact ⟨⟨s, a, true, true⟩, rfl, rfl, rfl, rfl, by simp, by simp⟩

theorem flatMap_zipIdx_fst {α β : Type} (l : List α) (n : Nat) (f : α → List β) :
    (l.zipIdx n).flatMap (fun p => f p.1) = l.flatMap f := by
  induction l generalizing n with
  | nil => rfl
  | cons a l ih => simp [List.zipIdx_cons, ih]

theorem kern_read (s : HyperState R P) :
    ((leaves s.kern).zipIdx.flatMap fun (k, i) =>
        (List.range (arity k)).map fun j => Slot.kern i j).map (readSlot s)
      = s.kern.getParam.map some := by
  rw [List.map_flatMap, expr_getParam, List.map_flatMap]
  simp only [leaf_getParam]
  rw [← flatMap_zipIdx_fst (leaves s.kern) 0 (fun k => (List.range (arity k)).map (field k))]
  apply List.flatMap_congr
  rintro ⟨k, i⟩ hki
  have hk : (leaves s.kern)[i]? = some k := by
    have := List.mem_zipIdx_iff_getElem?.1 hki
    simpa using this
  simp [readSlot, hk, Function.comp_def]

/-- The probit part of the layout. -/
theorem probit_layout (s : HyperState R P) (hord : s.hasOrd → ∃ h, s.ord.getHyper = .ok h) :
    ∃ h, s.getProbitHyper = .ok h ∧
      h.map some =
        ((if s.hasPref ∧ s.pref.optimize then [Slot.prefSigma] else []) ++
        (if s.hasOrd then [Slot.ordSigma, Slot.ordB] else []) ++
        (if s.hasAbs ∧ s.abs.optimize then
          (if s.abs.vOnly then [Slot.absV] else [Slot.absSigma, Slot.absV]) else [])).map (readSlot s) := by
  rcases s with ⟨⟨ps, po⟩, o, ⟨as, v, ao, vo⟩, hp, ho, ha, k, only⟩
  have key : ∃ h, (⟨⟨ps, po⟩, o, ⟨as, v, ao, vo⟩, hp, ho, ha, k, only⟩ : HyperState R P).ordPart = .ok h ∧
      h.map some = (if ho = true then [Slot.ordSigma, Slot.ordB] else []).map
        (readSlot (⟨⟨ps, po⟩, o, ⟨as, v, ao, vo⟩, hp, ho, ha, k, only⟩ : HyperState R P)) := by
    cases ho
    · exact ⟨[], rfl, rfl⟩
    · obtain ⟨h, hh⟩ := hord rfl
      obtain ⟨r, h1, h2⟩ := getHyper_top o hh
      refine ⟨h, hh, ?_⟩
      simp only [if_true, h2, List.map_cons, List.map_nil, readSlot, h1]
  obtain ⟨h, hh, hr⟩ := key
  refine ⟨(if hp then PrefHyper.getHyper ⟨ps, po⟩ else []) ++ h ++
    (if ha then AbsHyper.getHyper ⟨as, v, ao, vo⟩ else []), ?_, ?_⟩
  · unfold HyperState.getProbitHyper
    simp only [hh]
    rfl
  · simp only [List.map_append, hr]
    cases po <;> cases hp <;> cases ao <;> cases ha <;> cases vo <;>
      simp [PrefHyper.getHyper, AbsHyper.getHyper, readSlot]

theorem take_drop_slice {α : Type} (a b c : List α) (n m : Nat) (hn : n = a.length)
    (hm : m = a.length + b.length) : ((a ++ b ++ c).take m).drop n = b := by
  subst hn hm
  rw [show a.length + b.length = (a ++ b).length by simp, List.take_left, List.drop_left]

theorem setPrefPart_ok (s : HyperState R P) (x r : List R)
    (h : x.length = (if s.hasPref then s.pref.getHyper else []).length) :
    ∃ p', s.setPrefPart (x ++ r) 0 = .ok (p', x.length) ∧
      (if s.hasPref then p'.getHyper else []) = x ∧ p'.optimize = s.pref.optimize ∧
      (s.hasPref = false → p' = s.pref) ∧ (s.pref.optimize = false → p' = s.pref) := by
  unfold HyperState.setPrefPart
  cases hp : s.hasPref
  · simp only [hp, Bool.false_eq_true, if_false, List.length_nil] at h
    have := List.length_eq_zero_iff.1 h
    subst this
    exact ⟨s.pref, rfl, rfl, rfl, fun _ => rfl, fun _ => rfl⟩
  · simp only [hp, if_true] at h ⊢
    obtain ⟨p', h1, h2, h3, h4⟩ := pref_set s.pref x h
    refine ⟨p', ?_, h2, h3, by simp, h4⟩
    have : ((x ++ r).take (0 + s.pref.getHyper.length)).drop 0 = x := by
      rw [← h]; simp
    rw [this, h1, ← h, Nat.zero_add]
    rfl

theorem setAbsPart_ok (s : HyperState R P) (q x : List R)
    (h : x.length = (if s.hasAbs then s.abs.getHyper else []).length) :
    ∃ p' n, s.setAbsPart (q ++ x) q.length = .ok (p', n) ∧
      (if s.hasAbs then p'.getHyper else []) = x ∧ p'.optimize = s.abs.optimize ∧
      p'.vOnly = s.abs.vOnly ∧ (s.hasAbs = false → p' = s.abs) ∧
      (s.abs.optimize = false → p' = s.abs) ∧ (s.abs.vOnly = true → p'.sigma = s.abs.sigma) := by
  unfold HyperState.setAbsPart
  cases hp : s.hasAbs
  · simp only [hp, Bool.false_eq_true, if_false, List.length_nil] at h
    have := List.length_eq_zero_iff.1 h
    subst this
    exact ⟨s.abs, _, rfl, rfl, rfl, rfl, fun _ => rfl, fun _ => rfl, fun _ => rfl⟩
  · simp only [hp, if_true] at h ⊢
    obtain ⟨p', h1, h2, h3, h4, h5, h6⟩ := abs_set s.abs x h
    refine ⟨p', q.length + s.abs.getHyper.length, ?_, h2, h3, h4, by simp, h5, h6⟩
    have : ((q ++ x).take (q.length + s.abs.getHyper.length)).drop q.length = x := by
      have := take_drop_slice q x [] q.length (q.length + s.abs.getHyper.length) rfl (by rw [h])
      simpa using this
    rw [this, h1]
    rfl

/-- The ordinal parameters reported after setting `x`: the threshold comes back as its absolute
value, or as 0 when there are only two ordinals. -/
def ordEcho (n : Nat) : List R → List R
  | [s, b] => [s, if n = 2 then 0 else |b|]
  | l => l

variable [IsStrictOrderedRing R]

theorem setOrdPart_ok (s : HyperState R P) (q x r : List R)
    (h : x.length = if s.hasOrd then 2 else 0)
    (hs : s.hasOrd → 2 ≤ s.ord.n ∧ ∃ h, s.ord.getHyper = .ok h) :
    ∃ o', s.setOrdPart (q ++ x ++ r) q.length = .ok (o', (q ++ x).length) ∧
      (s.hasOrd = false → o' = s.ord) ∧
      (s.hasOrd → o'.getHyper = .ok (ordEcho s.ord.n x) ∧ o'.n = s.ord.n ∧
        Uniform o') := by
  unfold HyperState.setOrdPart
  cases hp : s.hasOrd
  · simp only [hp, Bool.false_eq_true, if_false] at h
    have := List.length_eq_zero_iff.1 h
    subst this
    exact ⟨s.ord, by simp, fun _ => rfl, by simp⟩
  · simp only [hp, if_true] at h ⊢
    obtain ⟨hn, g, hg⟩ := hs hp
    obtain ⟨t, -, rfl⟩ := getHyper_top _ hg
    rcases x with _ | ⟨a, _ | ⟨b, _ | ⟨c, l⟩⟩⟩ <;> simp at h
    refine ⟨{ s.ord with sigma := a, b := cuts b s.ord.n }, ?_, by simp, fun _ => ⟨?_, rfl, ?_⟩⟩
    · have hsl : ((q ++ [a, b] ++ r).take (q.length + 2)).drop q.length = [a, b] :=
        take_drop_slice q [a, b] r _ _ rfl rfl
      have hset : s.ord.setHyper [a, b] = .ok { s.ord with sigma := a, b := cuts b s.ord.n } :=
        setB_scalar { s.ord with sigma := a } b (by simp; omega)
      simp only [hg, bind, Except.bind, List.length_cons, List.length_nil, Nat.zero_add,
        Nat.reduceAdd, hsl, hset, List.length_append]
    · by_cases h2 : s.ord.n = 2
      · simpa [ordEcho, h2] using cuts_getHyper_two { s.ord with sigma := a } b h2
      · simpa [ordEcho, h2] using cuts_getHyper { s.ord with sigma := a } b (by simp; omega)
    · exact cuts_uniform { s.ord with sigma := a } b hn

/-- Setting the three probit parts. -/
theorem setProbit_ok (s : HyperState R P) (xp xo xa : List R)
    (hp : xp.length = (if s.hasPref then s.pref.getHyper else []).length)
    (ho : xo.length = if s.hasOrd then 2 else 0)
    (ha : xa.length = (if s.hasAbs then s.abs.getHyper else []).length)
    (hs : s.hasOrd → 2 ≤ s.ord.n ∧ ∃ h, s.ord.getHyper = .ok h) :
    ∃ p' o' a', s.setProbitHyper (xp ++ xo ++ xa) = .ok { s with pref := p', ord := o', abs := a' } ∧
      ((if s.hasPref then p'.getHyper else []) = xp ∧ p'.optimize = s.pref.optimize ∧
        (s.hasPref = false → p' = s.pref) ∧ (s.pref.optimize = false → p' = s.pref)) ∧
      ((s.hasOrd = false → o' = s.ord) ∧
        (s.hasOrd → o'.getHyper = .ok (ordEcho s.ord.n xo) ∧ o'.n = s.ord.n ∧ Uniform o')) ∧
      ((if s.hasAbs then a'.getHyper else []) = xa ∧ a'.optimize = s.abs.optimize ∧
        a'.vOnly = s.abs.vOnly ∧ (s.hasAbs = false → a' = s.abs) ∧
        (s.abs.optimize = false → a' = s.abs) ∧ (s.abs.vOnly = true → a'.sigma = s.abs.sigma)) := by
  obtain ⟨p', hp1, hp2⟩ := setPrefPart_ok s xp (xo ++ xa) hp
  obtain ⟨o', ho1, ho2⟩ := setOrdPart_ok s xp xo xa ho hs
  obtain ⟨a', n, ha1, ha2⟩ := setAbsPart_ok s (xp ++ xo) xa ha
  refine ⟨p', o', a', ?_, hp2, ho2, ha2⟩
  unfold HyperState.setProbitHyper
  rw [← List.append_assoc] at hp1
  simp only [hp1, bind, Except.bind, ho1, ha1]

/-- Writing back the vector that was read. -/
theorem set_get_hyper (s : HyperState R P) (h : List R) (hh : s.getHyper = .ok h)
    (hu : s.hasOrd → 2 ≤ s.ord.n ∧ Uniform s.ord) : s.setHyper h = .ok s := by
  unfold HyperState.getHyper at hh
  cases hg : s.getProbitHyper with
  | error e => rw [hg] at hh; simp [bind, Except.bind] at hh
  | ok g =>
    rw [hg] at hh
    simp only [bind, Except.bind] at hh
    -- the probit part
    have hg' := hg
    unfold HyperState.getProbitHyper at hg'
    cases ho : s.ordPart with
    | error e => rw [ho] at hg'; simp [bind, Except.bind] at hg'
    | ok o =>
      rw [ho] at hg'
      simp only [bind, Except.bind, Except.ok.injEq] at hg'
      set xp := if s.hasPref then s.pref.getHyper else [] with hxp
      set xa := if s.hasAbs then s.abs.getHyper else [] with hxa
      have hP : s.setPrefPart g 0 = .ok (s.pref, xp.length) := by
        unfold HyperState.setPrefPart
        rw [← hg']
        cases hp : s.hasPref
        · simp [hxp, hp]
        · have : xp = s.pref.getHyper := by simp [hxp, hp]
          rw [this, List.append_assoc]
          have e : ((s.pref.getHyper ++ (o ++ xa)).take s.pref.getHyper.length).drop 0 =
              s.pref.getHyper := by simp
          have e2 : s.pref.setHyper s.pref.getHyper = .ok s.pref := by
            rcases s.pref with ⟨a, _ | _⟩ <;> rfl
          simp only [if_true, Nat.zero_add, e, e2, bind, Except.bind]
      have hO : s.setOrdPart g xp.length = .ok (s.ord, (xp ++ o).length) := by
        unfold HyperState.setOrdPart
        unfold HyperState.ordPart at ho
        rw [← hg']
        cases hp : s.hasOrd
        · simp only [hp, Bool.false_eq_true, if_false, Except.ok.injEq] at ho ⊢
          simp [← ho]
        · simp only [hp, if_true] at ho ⊢
          obtain ⟨hn, hU⟩ := hu hp
          obtain ⟨top, h0, hz, hb⟩ := uniform_eq_cuts hn hU
          have hog : o = [s.ord.sigma, top] := by
            have hs : s.ord = { s.ord with b := cuts top s.ord.n } := by rw [← hb]
            by_cases h2 : s.ord.n = 2
            · have := cuts_getHyper_two s.ord top h2
              rw [← hs, ho, Except.ok.injEq] at this
              rw [this, hz h2]
            · have := cuts_getHyper s.ord top (by omega)
              rw [← hs, ho, Except.ok.injEq, abs_of_nonneg h0] at this
              exact this
          have e : ((xp ++ o ++ xa).take (xp.length + o.length)).drop xp.length = o :=
            take_drop_slice xp o xa _ _ rfl rfl
          have e2 : s.ord.setHyper o = .ok s.ord := by
            rw [hog]
            have : s.ord.setHyper [s.ord.sigma, top] = .ok { s.ord with b := cuts top s.ord.n } :=
              setB_scalar s.ord top (by omega)
            rw [this, ← hb]
          simp only [ho, bind, Except.bind, e, e2, List.length_append]
      have hA : ∃ n, s.setAbsPart g (xp ++ o).length = .ok (s.abs, n) := by
        unfold HyperState.setAbsPart
        rw [← hg']
        cases hp : s.hasAbs
        · exact ⟨_, rfl⟩
        · have : xa = s.abs.getHyper := by simp [hxa, hp]
          rw [this]
          have e : ((xp ++ o ++ s.abs.getHyper).take ((xp ++ o).length + s.abs.getHyper.length)).drop
              (xp ++ o).length = s.abs.getHyper := by
            have := take_drop_slice (xp ++ o) s.abs.getHyper [] (xp ++ o).length _ rfl rfl
            simpa using this
          have e2 : s.abs.setHyper s.abs.getHyper = .ok s.abs := by
            rcases s.abs with ⟨a, b, _ | _, _ | _⟩ <;> rfl
          refine ⟨(xp ++ o).length + s.abs.getHyper.length, ?_⟩
          simp only [if_true, e, e2, bind, Except.bind]
      obtain ⟨n, hA⟩ := hA
      have hset : s.setProbitHyper g = .ok s := by
        unfold HyperState.setProbitHyper
        simp only [hP, hO, hA, bind, Except.bind]
      unfold HyperState.setHyper
      simp only [hg, bind, Except.bind]
      cases hop : s.onlyProbit
      · simp only [hop, Bool.false_eq_true, if_false, Except.ok.injEq] at hh
        rw [← hh, List.take_left, hset, List.drop_left]
        have hk : s.kern.setParam s.kern.getParam = .ok s.kern := by
          simpa using expr_get_set s.kern []
        simp only [hop, Bool.false_eq_true, if_false, hk]
        rw [← hop]
      · simp only [hop, if_true, Except.ok.injEq] at hh
        rw [← hh, List.take_length, hset]
        simp [hop]

end vector

end Lop
