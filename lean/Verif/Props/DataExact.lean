import Verif.Props.Data

/-! # C19, C20: exactly what removing unreferenced points does to ratings and to the prior points -/

namespace Lop.Props

open Lop Lop.Spec

variable {d : Nat} {α R : Type} [LinearOrder α] [Field R] [LinearOrder R] [IsStrictOrderedRing R]

private theorem keptPts_append' {P : Type*} (keep : Nat → Bool) (A B : List P) :
    keptPts keep (A ++ B) = keptPts keep A ++ keptPts (fun i => keep (i + A.length)) B := by
  induction B using List.reverseRecOn with
  | nil => simp [keptPts]
  | append_singleton B b ih =>
    rw [← List.append_assoc, keptPts_concat, keptPts_concat, ih, List.append_assoc, List.length_append, Nat.add_comm]

private theorem keptPts_nodup {P : Type*} (keep : Nat → Bool) (X : List P) (h : X.Nodup) : (keptPts keep X).Nodup := by
  unfold keptPts
  refine (List.Sublist.map (fun q : P × Nat => q.1) List.filter_sublist).nodup ?_
  simpa using h

/-- A position of the kept points holds the point it held before exactly if nothing up to it was removed. -/
private theorem keptPts_same {P : Type*} (keep : Nat → Bool) (X : List P) (h : X.Nodup) (i : Nat) (hi : i < X.length) :
    (keptPts keep X)[i]? = X[i]? ↔ ∀ j ≤ i, keep j = true := by
  constructor
  · intro heq
    rw [List.getElem?_eq_getElem hi] at heq
    have hmem : X[i] ∈ keptPts keep X := List.mem_of_getElem? heq
    rw [keptPts_eq_filterMap, List.mem_filterMap] at hmem
    obtain ⟨k, hk, hxk⟩ := hmem
    obtain ⟨hk1, hk2⟩ := List.mem_filter.mp hk
    have hk1 := List.mem_range.mp hk1
    have hki : k = i := by
      rw [List.getElem?_eq_getElem hk1] at hxk
      exact (List.Nodup.getElem_inj_iff h).mp (Option.some.inj hxk)
    subst hki
    have hpos := keptPts_get keep X k hi hk2
    rw [List.getElem?_eq_getElem hi] at hpos
    have hc : (List.range k).countP keep = k := by
      obtain ⟨h1, h2⟩ := List.getElem?_eq_some_iff.mp heq
      obtain ⟨h3, h4⟩ := List.getElem?_eq_some_iff.mp hpos
      exact (List.Nodup.getElem_inj_iff (keptPts_nodup keep X h)).mp (h4.trans h2.symm)
    have hall : ∀ j ∈ List.range k, keep j = true := by
      refine List.countP_eq_length.mp ?_
      rw [hc, List.length_range]
    intro j hj
    rcases Nat.lt_or_eq_of_le hj with hj | hj
    · exact hall j (List.mem_range.mpr hj)
    · rw [hj]; exact hk2
  · intro hall
    have hpos := keptPts_get keep X i hi (hall i le_rfl)
    have hc : (List.range i).countP keep = (List.range i).length :=
      List.countP_eq_length.mpr fun j hj => hall j (List.mem_range.mp hj).le
    rwa [hc, List.length_range] at hpos

omit [IsStrictOrderedRing R] in
/-- C19: for training points that are all different, exactly which ratings keep their meaning when unreferenced points
are removed: those with no unreferenced point at or before their own position. -/
theorem C19_ratings_exact (st : ModelState d α R) (hr : InRange st) (X : List (Fin d → α)) (ps : List Pair)
    (hX : st.X = some X) (hps : st.y.rel = some ps) (hnd : X.Nodup) :
    let st' := (removeUnreferenced st).1
    ((decode st').rates = (decode st).rates ↔
      ∀ r ∈ st.y.abs.getD [], ∀ j ≤ r.2, ∃ p ∈ ps, p.u = j ∨ p.v = j) ∧
    ((decode st').ords = (decode st).ords ↔
      ∀ r ∈ st.y.ord.getD [], ∀ j ≤ r.2, ∃ p ∈ ps, p.u = j ∨ p.v = j) := by
  have hin : ∀ p ∈ ps, p.u < X.length ∧ p.v < X.length := by
    have := hr.1
    simpa [hX, hps] using this
  have hany : ¬ (ps.any (fun p => decide (p.u ≥ X.length ∨ p.v ≥ X.length))) = true := by
    simp only [List.any_eq_true, decide_eq_true_eq, not_exists, not_and]
    intro p hp
    have := hin p hp
    omega
  have hX' : (X.zipIdx.filter fun (q : (Fin d → α) × Nat) => referenced ps q.2).map (·.1) =
      keptPts (referenced ps) X := rfl
  have hform : (removeUnreferenced st).1.X = some (keptPts (referenced ps) X) ∧
      (removeUnreferenced st).1.y.abs = st.y.abs ∧ (removeUnreferenced st).1.y.ord = st.y.ord := by
    unfold removeUnreferenced
    simp only [hX, hps]
    rw [if_neg hany]
    cases hpr : st.prior with
    | none => simp only [hX']; simp
    | some ab => simp only [hX']; simp
  obtain ⟨f1, f2, f3⟩ := hform
  have hmap : ∀ {β : Type} (l : List (β × Nat)), (∀ r ∈ l, r.2 < X.length) →
      ((l.map fun r => ((keptPts (referenced ps) X)[r.2]?, r.1)) = (l.map fun r => (X[r.2]?, r.1)) ↔
        ∀ r ∈ l, ∀ j ≤ r.2, ∃ p ∈ ps, p.u = j ∨ p.v = j) := by
    intro β l hl
    rw [List.map_inj_left]
    refine forall₂_congr fun r hr => ?_
    rw [Prod.mk.injEq]
    simp only [and_true]
    rw [keptPts_same _ _ hnd _ (hl r hr)]
    simp [referenced]
  refine ⟨?_, ?_⟩
  · simp only [decode, f1, f2, hX, Option.getD_some]
    exact hmap _ (by simpa [hX] using hr.2.2)
  · simp only [decode, f1, f3, hX, Option.getD_some]
    exact hmap _ (by simpa [hX] using hr.2.1)

/-- C20: exactly what `get_prior_pts` returns after `add_prior`, whatever was stored before and whatever is added later:
of the prior points that take part in a dominance relation, the first `r` are missing, where `r` is the number of points
stored before that no stored pair mentions and no prior point dominates. -/
theorem C20_prior_points_exact (hd : 0 < d) (st : ModelState d α R) (hr : InRange st)
    (pts : List (Fin d → α)) (hok : (addPrior true st pts).2 = none)
    (later : List (List (Fin d → α) × AddInput R)) :
    getPriorPts (later.foldl (fun s a => (modelAdd true s a.1 a.2).1) (addPrior true st pts).1) =
      .ok (some ((pts.filter fun x =>
        decide ((∃ z ∈ st.X.getD [] ++ pts, ∀ k, z k < x k) ∨ ∃ z ∈ pts, ∀ k, x k < z k)).drop
          ((st.X.getD []).zipIdx.countP fun q =>
            decide ((¬ ∃ p ∈ st.y.rel.getD [], p.u = q.2 ∨ p.v = q.2) ∧ ¬ ∃ z ∈ pts, ∀ k, q.1 k < z k)))) := by
  set old := st.X.getD [] with hold
  set ps0 := st.y.rel.getD [] with hps0
  let st1 : ModelState d α R := { st with prior := some (old.length, ((old.length + pts.length : Nat) : Int)) }
  obtain ⟨hX2, hpr2⟩ := modelAdd_X_prior true st1 pts (.pairs [])
  have hlab : addLabels st1.y (st1.X.getD []).length (.pairs []) = .ok (some st1.y) := by
    simp [addLabels]
  have hadd : (modelAdd true st1 pts (.pairs [])).2 = none := by
    unfold modelAdd; simp only [hlab]
  have hrel : (modelAdd true st1 pts (.pairs [])).1.y.rel.getD [] =
      ps0 ++ paretoPairs old.length pts (old ++ pts) := by
    have := (pareto_step true (fun _ => hd) old pts st1.y).1
    unfold modelAdd
    simp only [hlab]
    simpa using this
  set st2 := (modelAdd true st1 pts (.pairs [])).1 with hst2
  have hX2 : st2.X = some (old ++ pts) := hX2
  have hpr2 : st2.prior = some (old.length, ((old.length + pts.length : Nat) : Int)) := hpr2
  have hap : addPrior true st pts = removeUnreferenced st2 := by
    unfold addPrior
    rw [if_neg (by simp)]
    simp only [← hold]
    show (match (modelAdd true st1 pts (.pairs [])).2 with
      | some e => ((modelAdd true st1 pts (.pairs [])).1, some e)
      | none => removeUnreferenced (modelAdd true st1 pts (.pairs [])).1) = _
    rw [hadd]
  rw [hap] at hok ⊢
  obtain ⟨ps, hps⟩ : ∃ ps, st2.y.rel = some ps := by
    cases h : st2.y.rel with
    | some ps => exact ⟨ps, rfl⟩
    | none => simp [removeUnreferenced, hX2, h] at hok
  have hpsv : ps = ps0 ++ paretoPairs old.length pts (old ++ pts) := by
    rw [← hrel, hps]; rfl
  have hin : ∀ p ∈ ps, p.u < (old ++ pts).length ∧ p.v < (old ++ pts).length := by
    intro p hp
    rw [hpsv, List.mem_append] at hp
    rcases hp with hp | hp
    · have := hr.1 p hp
      simp only [List.length_append, hold]; omega
    · exact paretoPairs_inRange _ _ p hp
  have hany : ¬ (ps.any (fun p => decide (p.u ≥ (old ++ pts).length ∨ p.v ≥ (old ++ pts).length))) = true := by
    simp only [List.any_eq_true, decide_eq_true_eq, not_exists, not_and]
    intro p hp
    have := hin p hp
    omega
  have hkeep := keptPts_append' (referenced ps) old pts
  have hres : (removeUnreferenced st2).1.X = some (keptPts (referenced ps) (old ++ pts)) ∧
      (removeUnreferenced st2).1.prior = some (old.length,
        ((old.length + pts.length : Nat) : Int) -
          (((old ++ pts).length - (keptPts (referenced ps) (old ++ pts)).length : Nat) : Int)) := by
    unfold removeUnreferenced
    simp only [hX2, hps]
    rw [if_neg hany]
    simp only [hpr2]
    exact ⟨rfl, rfl⟩
  obtain ⟨hX3, hpr3⟩ := hres
  have hlen : (keptPts (referenced ps) (old ++ pts)).length ≤ (old ++ pts).length := by
    rw [keptPts_length]
    have := List.countP_le_length (p := referenced ps) (l := List.range (old ++ pts).length)
    simpa using this
  have hb : (((old.length + pts.length : Nat) : Int) -
          (((old ++ pts).length - (keptPts (referenced ps) (old ++ pts)).length : Nat) : Int)) =
      (((keptPts (referenced ps) (old ++ pts)).length : Nat) : Int) := by
    rw [Nat.cast_sub hlen]
    simp only [List.length_append]; ring
  rw [hb] at hpr3
  -- which earlier points are referenced
  have hearly : ∀ (i : Nat) x, old[i]? = some x → (referenced ps i = true ↔
      ¬ ((¬ ∃ p ∈ ps0, p.u = i ∨ p.v = i) ∧ ¬ ∃ z ∈ pts, ∀ k, x k < z k)) := by
    intro i x hx
    have hi := (List.getElem?_eq_some_iff.mp hx).1
    simp only [referenced, List.any_eq_true, decide_eq_true_eq]
    rw [hpsv, not_and_or, not_not, not_not]
    constructor
    · rintro ⟨p, hp, hpu⟩
      rcases List.mem_append.mp hp with hp | hp
      · exact Or.inl ⟨p, hp, hpu⟩
      · rw [mem_paretoPairs] at hp
        obtain ⟨_, i', x', z, hu, hx', hz, hk⟩ := hp
        rcases hpu with h | h
        · omega
        · right
          rw [h, List.getElem?_append_left hi, hx] at hz
          cases hz
          exact ⟨x', List.mem_of_getElem? hx', hk⟩
    · rintro (⟨p, hp, hpu⟩ | ⟨z, hz, hk⟩)
      · exact ⟨p, List.mem_append_left _ hp, hpu⟩
      · obtain ⟨j, hj⟩ := List.mem_iff_getElem?.mp hz
        refine ⟨⟨-1, j + old.length, i⟩, List.mem_append_right _ ?_, Or.inr rfl⟩
        rw [mem_paretoPairs]
        refine ⟨rfl, j, z, x, rfl, hj, ?_, hk⟩
        simp only
        rw [List.getElem?_append_left hi]
        exact hx
  have hcount : old.length - (keptPts (referenced ps) old).length = old.zipIdx.countP fun q =>
      decide ((¬ ∃ p ∈ ps0, p.u = q.2 ∨ p.v = q.2) ∧ ¬ ∃ z ∈ pts, ∀ k, q.1 k < z k) := by
    have h1 : (keptPts (referenced ps) old).length = old.zipIdx.countP fun q => referenced ps q.2 := by
      unfold keptPts
      rw [List.length_map, List.countP_eq_length_filter]
    have h2 := List.length_eq_countP_add_countP (l := old.zipIdx) (fun q => referenced ps q.2)
    rw [List.length_zipIdx] at h2
    have h3 : (old.zipIdx.countP fun q => decide ¬ referenced ps q.2 = true) = old.zipIdx.countP fun q =>
        decide ((¬ ∃ p ∈ ps0, p.u = q.2 ∨ p.v = q.2) ∧ ¬ ∃ z ∈ pts, ∀ k, q.1 k < z k) := by
      apply List.countP_congr
      rintro ⟨x, i⟩ hq
      have hx := List.mem_zipIdx_iff_getElem?.mp hq
      simp only [decide_eq_true_eq]
      rw [hearly i x hx, not_not]
    omega
  rw [getPriorPts_stable true later _ _ _ _ hX3 hpr3 le_rfl, List.take_length, hkeep, List.drop_append, hcount]
  have hdrop : (keptPts (referenced ps) old).drop old.length = [] := by
    apply List.drop_eq_nil_of_le
    rw [keptPts_length]
    have := List.countP_le_length (p := referenced ps) (l := List.range old.length)
    simpa using this
  rw [hdrop, List.nil_append]
  congr 3
  apply keptPts_eq_filter
  intro i x hx
  rw [Bool.eq_iff_iff]
  have hi := (List.getElem?_eq_some_iff.mp hx).1
  simp only [referenced, List.any_eq_true, decide_eq_true_eq]
  rw [hpsv]
  constructor
  · rintro ⟨p, hp, hpu⟩
    rw [List.mem_append] at hp
    rcases hp with hp | hp
    · have := hr.1 p hp
      simp only [← hold] at this
      omega
    · rw [mem_paretoPairs] at hp
      obtain ⟨_, i', x', z, hu, hx', hz, hk⟩ := hp
      rcases hpu with h | h
      · left
        have : i' = i := by omega
        subst this
        rw [hx] at hx'
        cases hx'
        exact ⟨z, List.mem_of_getElem? hz, hk⟩
      · right
        rw [h, List.getElem?_append_right (by omega), Nat.add_sub_cancel, hx] at hz
        cases hz
        exact ⟨x', List.mem_of_getElem? hx', hk⟩
  · rintro (⟨z, hz, hk⟩ | ⟨z, hz, hk⟩)
    · obtain ⟨j, hj⟩ := List.mem_iff_getElem?.mp hz
      refine ⟨⟨-1, i + old.length, j⟩, List.mem_append_right _ ?_, Or.inl rfl⟩
      rw [mem_paretoPairs]
      exact ⟨rfl, i, x, z, rfl, hx, hj, hk⟩
    · obtain ⟨j, hj⟩ := List.mem_iff_getElem?.mp hz
      refine ⟨⟨-1, j + old.length, i + old.length⟩, List.mem_append_right _ ?_, Or.inr rfl⟩
      rw [mem_paretoPairs]
      refine ⟨rfl, j, z, x, rfl, hj, ?_, hk⟩
      simp only
      rw [List.getElem?_append_right (by omega), Nat.add_sub_cancel]
      exact hx

/-- Two unreferenced points stored before: the first two of three prior points are lost. -/
example : InRange ({ X := some [![0, 9], ![9, 0]], y := { abs := some [(1 / 2, 0)] } } : ModelState 2 Int ℚ) ∧
    (addPrior true ({ X := some [![0, 9], ![9, 0]], y := { abs := some [(1 / 2, 0)] } } : ModelState 2 Int ℚ)
      [![1, 1], ![2, 2], ![3, 3]]).2 = none ∧
    getPriorPts (addPrior true
      ({ X := some [![0, 9], ![9, 0]], y := { abs := some [(1 / 2, 0)] } } : ModelState 2 Int ℚ)
      [![1, 1], ![2, 2], ![3, 3]]).1 = .ok (some [![3, 3]]) :=
  ⟨by simp [InRange], by decide +kernel, by decide +kernel⟩

/-- A rating that moves and one that does not. -/
example : InRange ({ X := some [![7], ![1], ![2]], y := { rel := some [⟨-1, 0, 1⟩], abs := some [(1 / 2, 0), (1 / 3, 2)] } } :
      ModelState 1 Int ℚ) ∧ [![7], ![1], ![(2 : Int)]].Nodup :=
  ⟨by simp [InRange], by decide +kernel⟩

end Lop.Props
