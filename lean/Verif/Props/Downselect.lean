import Verif.Model.TrainLoop
import Verif.Spec.TrainLoop
import Verif.Props.Evaluation
import Mathlib.Tactic.Linarith
import Mathlib.Tactic.NormNum
import Mathlib.Tactic.Positivity

/-! # C82: reducing the candidates before a query -/

namespace Lop.Props

open Lop Spec

variable {X : Type*}

theorem takeRows_spec {rows : List X} {idx : List Nat} {out : List X} (h : takeRows rows idx = .ok out) :
    idx.map (rows[·]?) = out.map some := by
  induction idx generalizing out with
  | nil => simp [takeRows] at h; subst h; rfl
  | cons i rest ih =>
    rw [takeRows] at h
    cases hi : rows[i]? with
    | none => rw [hi] at h; cases h
    | some x =>
      rw [hi] at h
      simp only at h
      cases hr : takeRows rows rest with
      | error e => rw [hr] at h; cases h
      | ok xs =>
        rw [hr] at h
        cases h
        simp [hi, ih hr]

theorem takeRows_positions {rows : List X} {idx : List Nat} (h : ∀ i ∈ idx, i < rows.length) :
    ∃ out, takeRows rows idx = .ok out ∧ out.length = idx.length ∧ idx.map (rows[·]?) = out.map some := by
  obtain ⟨out, ho, hl⟩ := takeRows_ok rows idx h
  exact ⟨out, ho, hl, takeRows_spec ho⟩

/-- Rows of rows are rows. -/
theorem subRows_trans {rows mid out : List X} {idx jdx : List Nat} (h1 : idx.map (rows[·]?) = mid.map some)
    (h2 : jdx.map (mid[·]?) = out.map some) :
    (jdx.map fun j => idx[j]?.getD 0).map (rows[·]?) = out.map some := by
  rw [← h2, List.map_map]
  apply List.map_congr_left
  intro j hj
  have hlen : idx.length = mid.length := by simpa using congrArg List.length h1
  have hjm : j < mid.length := by
    have : mid[j]? ∈ out.map some := by rw [← h2]; exact List.mem_map_of_mem hj
    rw [List.mem_map] at this
    obtain ⟨x, _, hx⟩ := this
    by_contra hge
    rw [List.getElem?_eq_none (by omega)] at hx
    cases hx
  have hji : j < idx.length := by omega
  have := congrArg (fun l => l[j]?) h1
  simp only [List.getElem?_map, List.getElem?_eq_getElem hji, List.getElem?_eq_getElem hjm, Option.map_some,
    Option.some.injEq] at this
  simp [List.getElem?_eq_getElem hji, List.getElem?_eq_getElem hjm, this]

theorem compose_nodup {idx jdx : List Nat} (hi : idx.Nodup) (hj : Positions idx.length jdx) :
    (jdx.map fun j => idx[j]?.getD 0).Nodup := by
  refine List.Nodup.map_on ?_ hj.1
  intro a ha b hb h
  have ha' := hj.2 a ha
  have hb' := hj.2 b hb
  simp only [List.getElem?_eq_getElem ha', List.getElem?_eq_getElem hb', Option.getD_some] at h
  exact (List.Nodup.getElem_inj_iff hi).1 h

theorem compose_mem {idx jdx : List Nat} (hj : ∀ j ∈ jdx, j < idx.length) {i : Nat}
    (h : i ∈ jdx.map fun j => idx[j]?.getD 0) : i ∈ idx := by
  obtain ⟨j, hm, rfl⟩ := List.mem_map.1 h
  simp [List.getElem?_eq_getElem (hj j hm)]

/-- The centers found by `KMedoids`. -/
theorem centers_ok {E : DownEnv X} (hE : DownOk E) {rows : List X} {k : Nat} (h0 : 0 < k) (hk : k ≤ rows.length) :
    ∃ (out : List X) (idx : List Nat), centers E rows k = .ok out ∧ Positions rows.length idx ∧ idx.length = k ∧ out.length = k ∧
      idx.map (rows[·]?) = out.map some := by
  obtain ⟨idx, h1, h2, h3⟩ := hE.kmed_ok rows k h0 hk
  obtain ⟨out, ho, hl, hm⟩ := takeRows_positions h2.2
  exact ⟨out, idx, by rw [centers, h1]; exact ho, h2, h3, by rw [hl, h3], hm⟩

theorem centers_err {E : DownEnv X} (hE : DownOk E) {rows : List X} {k : Nat} (h : k = 0 ∨ rows.length < k) :
    centers E rows k = .error .valueError := by
  rw [centers, hE.kmed_err rows k h]

theorem complement_positions {E : DownEnv X} (hE : DownOk E) (n : Nat) {idxs : List Nat} (h : Positions n idxs) :
    Positions n (complementIdx E.ord n idxs) ∧ (complementIdx E.ord n idxs).length + idxs.length = n ∧
      ∀ i ∈ complementIdx E.ord n idxs, i ∉ idxs := by
  have hmem : ∀ i, i ∈ complementIdx E.ord n idxs ↔ i < n ∧ i ∉ idxs := fun i => by
    rw [complementIdx, hE.ord_mem]; simp
  refine ⟨⟨hE.ord_nodup _, fun i hi => ((hmem i).1 hi).1⟩, ?_, fun i hi => ((hmem i).1 hi).2⟩
  have h1 : (complementIdx E.ord n idxs).toFinset = Finset.range n \ idxs.toFinset := by
    ext i
    rw [List.mem_toFinset, hmem]
    simp
  have h2 := List.toFinset_card_of_nodup (hE.ord_nodup (Finset.range n \ idxs.toFinset))
  have h3 : idxs.toFinset ⊆ Finset.range n := fun i hi => by
    simpa using h.2 i (by simpa using hi)
  have h4 := Finset.card_sdiff_add_card_eq_card h3
  rw [List.toFinset_card_of_nodup h.1, Finset.card_range] at h4
  rw [complementIdx] at h1 ⊢
  rw [h1] at h2
  omega

theorem subRows_append {rows a b : List X} {i j : List Nat} (hi : i.Nodup) (hj : j.Nodup) (hd : ∀ x ∈ i, x ∉ j)
    (h1 : i.map (rows[·]?) = a.map some) (h2 : j.map (rows[·]?) = b.map some) : SubRows rows (a ++ b) :=
  ⟨i ++ j, List.Nodup.append hi hj (fun x hx hx' => hd x hx hx'), by simp [h1, h2]⟩

/-- C82 (`downsample_kmed_rand`): with at least one cluster and enough candidates the result has exactly the number
of candidates asked for, at different positions of the input. -/
theorem C82_kmed_rand {E : DownEnv X} (hE : DownOk E) {pct : ℝ} (h0 : 0 ≤ pct) (h1 : pct ≤ 1) {rows : List X}
    {n : Nat} (hn : n ≤ rows.length) (hk : 1 ≤ pct * n) :
    ∃ out, downsampleKmedRand E pct rows n = .ok out ∧ out.length = n ∧ SubRows rows out := by
  have hpn : 0 ≤ pct * n := by positivity
  have hle : pct * n ≤ n := mul_le_of_le_one_left (by positivity) h1
  obtain ⟨m, hm⟩ : ∃ m : Nat, ⌊pct * n⌋ = m := ⟨(⌊pct * n⌋).toNat, (Int.toNat_of_nonneg (Int.floor_nonneg.2 hpn)).symm⟩
  have hmn : m ≤ n := by
    have : (m : ℝ) ≤ n := by
      have := Int.floor_le (pct * n)
      rw [hm] at this
      push_cast at this
      linarith
    exact_mod_cast this
  have hm1 : 1 ≤ m := by
    have : (1 : Int) ≤ ⌊pct * n⌋ := Int.le_floor.2 (by simpa using hk)
    rw [hm] at this
    exact_mod_cast this
  have ht : intTrunc (pct * n) = m := by rw [intTrunc, if_pos hpn, hm]
  obtain ⟨ri, hri, hpos, hlen⟩ := hE.choice_ok rows.length ((n : Int) - m) (by omega) (by omega)
  obtain ⟨hc1, hc2, hc3⟩ := complement_positions hE rows.length hpos
  obtain ⟨rest, hrest, hrl, hrm⟩ := takeRows_positions (rows := rows) hc1.2
  obtain ⟨c, jdx, hc, hj, hjl, hcl, hcm⟩ := centers_ok hE (rows := rest) (k := m) hm1 (by omega)
  obtain ⟨rr, hrr, hrrl, hrrm⟩ := takeRows_positions (rows := rows) hpos.2
  have hjpos : Positions (complementIdx E.ord rows.length ri).length jdx := by rw [← hrl]; exact hj
  refine ⟨c ++ rr, ?_, by simp; omega, ?_⟩
  · simp only [downsampleKmedRand, ht, hri, hrest, Int.toNat_natCast, hc, hrr]
  · refine subRows_append (compose_nodup hc1.1 hjpos) hpos.1 (fun x hx => ?_) (subRows_trans hrm hcm) hrrm
    exact hc3 x (compose_mem hjpos.2 hx)

/-- C82 (`downsample_kmed_rand`), the other inputs: with less than one cluster, or more candidates asked for than
there are, it raises `ValueError`. -/
theorem C82_kmed_rand_error {E : DownEnv X} (hE : DownOk E) {pct : ℝ} (h0 : 0 ≤ pct) (h1 : pct ≤ 1) {rows : List X}
    {n : Nat} (h : rows.length < n ∨ pct * n < 1) : downsampleKmedRand E pct rows n = .error .valueError := by
  have hpn : 0 ≤ pct * n := by positivity
  have hle : pct * n ≤ n := mul_le_of_le_one_left (by positivity) h1
  obtain ⟨m, hm⟩ : ∃ m : Nat, ⌊pct * n⌋ = m := ⟨(⌊pct * n⌋).toNat, (Int.toNat_of_nonneg (Int.floor_nonneg.2 hpn)).symm⟩
  have hmn : m ≤ n := by
    have : (m : ℝ) ≤ n := by
      have := Int.floor_le (pct * n)
      rw [hm] at this
      push_cast at this
      linarith
    exact_mod_cast this
  have ht : intTrunc (pct * n) = m := by rw [intTrunc, if_pos hpn, hm]
  simp only [downsampleKmedRand, ht]
  by_cases hc : ((n : Int) - m) ≤ rows.length
  · obtain ⟨ri, hri, hpos, hlen⟩ := hE.choice_ok rows.length ((n : Int) - m) (by omega) hc
    obtain ⟨hc1, hc2, hc3⟩ := complement_positions hE rows.length hpos
    obtain ⟨rest, hrest, hrl, hrm⟩ := takeRows_positions (rows := rows) hc1.2
    have hbad : m = 0 ∨ rest.length < m := by
      rcases h with h | h
      · exact .inr (by omega)
      · left
        have h' : ⌊pct * n⌋ < 1 := Int.floor_lt.2 (by simpa using h)
        rw [hm] at h'
        omega
    simp only [hri, hrest, Int.toNat_natCast, centers_err hE hbad]
  · rw [hE.choice_err _ _ (.inr (by omega))]

/-- C82 (`downsample_hull`): for a number between one and that of the candidates the result has exactly that many
candidates at different positions; it contains all vertices of the hull if they fit, and otherwise only vertices. -/
theorem C82_hull {E : DownEnv X} (hE : DownOk E) {rows : List X} {n : Nat} (hn : n ≤ rows.length) (h1 : 1 ≤ n)
    {h : List Nat} (hh : E.hull rows = .ok h) :
    ∃ (out : List X) (idx : List Nat), downsampleHull E rows n = .ok out ∧ out.length = n ∧ idx.Nodup ∧
      idx.map (rows[·]?) = out.map some ∧ (h.length ≤ n → ∀ v ∈ h, v ∈ idx) ∧ (n ≤ h.length → ∀ v ∈ idx, v ∈ h) := by
  have hpos := hE.hull_ok rows h hh
  obtain ⟨hr, hhr, hhl, hhm⟩ := takeRows_positions (rows := rows) hpos.2
  by_cases hlt : h.length < n
  · obtain ⟨hc1, hc2, hc3⟩ := complement_positions hE rows.length hpos
    obtain ⟨rest, hrest, hrl, hrm⟩ := takeRows_positions (rows := rows) hc1.2
    obtain ⟨c, jdx, hc, hj, hjl, hcl, hcm⟩ := centers_ok hE (rows := rest) (k := n - h.length) (by omega) (by omega)
    have hjpos : Positions (complementIdx E.ord rows.length h).length jdx := by rw [← hrl]; exact hj
    refine ⟨hr ++ c, h ++ jdx.map fun j => (complementIdx E.ord rows.length h)[j]?.getD 0, ?_, ?_, ?_, ?_, ?_, ?_⟩
    · simp only [downsampleHull, hh, hlt, if_true, hrest, hc, hhr]
    · simp; omega
    · refine List.Nodup.append hpos.1 (compose_nodup hc1.1 hjpos) ?_
      intro x hx hx'
      exact hc3 x (compose_mem hjpos.2 hx') hx
    · rw [List.map_append, List.map_append, hhm, subRows_trans hrm hcm]
    · intro _ v hv; exact List.mem_append_left _ hv
    · intro hle; omega
  · obtain ⟨c, jdx, hc, hj, hjl, hcl, hcm⟩ := centers_ok hE (rows := hr) (k := n) (by omega) (by omega)
    have hjpos : Positions h.length jdx := by rw [← hhl]; exact hj
    refine ⟨c, jdx.map fun j => h[j]?.getD 0, ?_, hcl, compose_nodup hpos.1 hjpos, subRows_trans hhm hcm, ?_, ?_⟩
    · simp only [downsampleHull, hh, hlt, if_false, hhr, hc]
    · intro hle v hv
      have hnd := compose_nodup hpos.1 hjpos
      have hsub : (jdx.map fun j => h[j]?.getD 0).toFinset ⊆ h.toFinset := fun x hx => by
        simpa using compose_mem hjpos.2 (by simpa using hx)
      have hcard : h.toFinset.card ≤ (jdx.map fun j => h[j]?.getD 0).toFinset.card := by
        rw [List.toFinset_card_of_nodup hpos.1, List.toFinset_card_of_nodup hnd]
        simp
        omega
      have := Finset.eq_of_subset_of_card_le hsub hcard
      have hv' : v ∈ (jdx.map fun j => h[j]?.getD 0).toFinset := by rw [this]; simpa using hv
      simpa using hv'
    · intro _ v hv; exact compose_mem hjpos.2 hv

theorem subRows_refl (rows : List X) : SubRows rows rows :=
  ⟨List.range rows.length, List.nodup_range, by
    apply List.ext_getElem? 
    intro i
    by_cases hi : i < rows.length
    · simp [List.getElem?_eq_getElem, hi]
    · simp [List.getElem?_eq_none, not_lt.1 hi]⟩

/-- C82 (the reduction in the training loop): with the methods `uni`, `downhull` and `medrand` and a limit of at
least two the query selection gets all candidates if they are within the limit and otherwise exactly as many as the
limit says, at different positions of the input. (`C82_true_counterexample`: not with `true`.) -/
theorem C82_downselect_partial {E : DownEnv X} (hE : DownOk E) {m : String} {limit : Nat} (hl : 2 ≤ limit)
    {rows : List X} (hm : m = "uni" ∨ m = "medrand" ∨ (m = "downhull" ∧ ∃ h, E.hull rows = .ok h)) :
    ∃ out, downselect E m limit rows = .ok out ∧ SubRows rows out ∧ out.length = min rows.length limit ∧
      (rows.length ≤ limit → out = rows) := by
  by_cases hgt : limit < rows.length
  · have hmin : min rows.length limit = limit := by omega
    rw [hmin]
    rcases hm with rfl | rfl | ⟨rfl, h, hh⟩
    · obtain ⟨idx, hc, hp, hlen⟩ := hE.choice_ok rows.length limit (by omega) (by omega)
      obtain ⟨out, ho, hol, hom⟩ := takeRows_positions (rows := rows) hp.2
      refine ⟨out, ?_, ⟨idx, hp.1, hom⟩, by omega, fun h => by omega⟩
      simp [downselect, hgt, hc, ho]
    · obtain ⟨out, ho, hol, hs⟩ := C82_kmed_rand hE (pct := 1 / 2) (by norm_num) (by norm_num) (rows := rows)
        (n := limit) (by omega) (by
          have : (2 : ℝ) ≤ limit := by exact_mod_cast hl
          linarith)
      refine ⟨out, ?_, hs, hol, fun h => by omega⟩
      simp only [downselect]
      simpa [hgt] using ho
    · obtain ⟨out, idx, ho, hol, hn, hom, _⟩ := C82_hull hE (n := limit) (by omega) (by omega) hh
      refine ⟨out, ?_, ⟨idx, hn, hom⟩, hol, fun h => by omega⟩
      simp [downselect, hgt, ho]
  · refine ⟨rows, ?_, subRows_refl rows, by omega, fun _ => rfl⟩
    rcases hm with rfl | rfl | ⟨rfl, _⟩ <;> simp [downselect, hgt]

/-- C82 (the method `true`): beyond the limit always sixty medoids are taken, whatever the limit is; with fewer than
sixty candidates `ValueError` is raised. -/
theorem C82_true {E : DownEnv X} (hE : DownOk E) {m : String} (hm : m = "True" ∨ m = "true") {limit : Nat}
    {rows : List X} (h : limit < rows.length) :
    (60 ≤ rows.length → ∃ out, downselect E m limit rows = .ok out ∧ out.length = 60 ∧ SubRows rows out) ∧
    (rows.length < 60 → downselect E m limit rows = .error .valueError) := by
  constructor
  · intro h60
    obtain ⟨out, idx, hc, hp, _, hl, hom⟩ := centers_ok hE (rows := rows) (k := 60) (by norm_num) h60
    exact ⟨out, by simp [downselect, hm, h, hc], hl, idx, hp.1, hom⟩
  · intro h60
    simp [downselect, hm, h, centers_err hE (.inr h60)]

/-- C82, refuted for the method `true` with the limit 50 of the configuration file: a hundred candidates are reduced
to sixty, fifty-five raise an exception. -/
theorem C82_true_counterexample {E : DownEnv X} (hE : DownOk E) (x : X) :
    (∃ out, downselect E "true" 50 (List.replicate 100 x) = .ok out ∧ 50 < out.length) ∧
    downselect E "true" 50 (List.replicate 55 x) = .error .valueError := by
  constructor
  · obtain ⟨out, h1, h2, _⟩ := (C82_true hE (.inr rfl) (limit := 50) (rows := List.replicate 100 x) (by simp)).1
      (by simp)
    exact ⟨out, h1, by omega⟩
  · exact (C82_true hE (.inr rfl) (limit := 50) (rows := List.replicate 55 x) (by simp)).2 (by simp)

/-- C82, refuted for the limit 1: the method `medrand` asks for no cluster and raises. -/
theorem C82_one_counterexample {E : DownEnv X} (hE : DownOk E) {rows : List X} (h : 1 < rows.length) :
    downselect E "medrand" 1 rows = .error .valueError := by
  have := C82_kmed_rand_error hE (pct := 1 / 2) (by norm_num) (by norm_num) (rows := rows) (n := 1)
    (.inr (by norm_num))
  simp only [downselect]
  simpa [h] using this

/-- C82 (other values of the option): the candidates are not reduced, not even with the default `True` of
`train_and_eval`, which is not a string. -/
theorem C82_other (E : DownEnv X) {m : String} (hm : m ∉ ["True", "true", "uni", "downhull", "medrand"])
    (limit : Nat) (rows : List X) : downselect E m limit rows = .ok rows := by
  simp only [List.mem_cons, List.not_mem_nil, or_false, not_or] at hm
  simp [downselect, hm]

/-- Functions that do what `DownOk` says: the first indices. -/
def firstEnv (X : Type*) : DownEnv X where
  kmed rows k := if k = 0 ∨ rows.length < k then .error .valueError else .ok (List.range k)
  hull rows := .ok (List.range rows.length)
  choice n k := if k < 0 ∨ (n : Int) < k then .error .valueError else .ok (List.range k.toNat)
  ord s := s.sort (· ≤ ·)

theorem firstEnv_ok : DownOk (firstEnv X) where
  kmed_ok rows k h0 hk := ⟨List.range k, by simp [firstEnv]; omega,
    ⟨List.nodup_range, fun i hi => by simp at hi; omega⟩, by simp⟩
  kmed_err rows k h := by simp [firstEnv, h]
  choice_ok n k h0 hk := ⟨List.range k.toNat, by simp [firstEnv]; omega,
    ⟨List.nodup_range, fun i hi => by simp at hi; omega⟩, by simp [h0]⟩
  choice_err n k h := by simp [firstEnv, h]
  hull_ok rows h hh := by
    simp [firstEnv] at hh
    subst hh
    exact ⟨List.nodup_range, fun i hi => by simpa using hi⟩
  ord_nodup s := Finset.sort_nodup _ _
  ord_mem s i := Finset.mem_sort _

example : ∃ out, downselect (firstEnv Nat) "medrand" 50 (List.range 100) = .ok out ∧ out.length = 50 := by
  obtain ⟨out, h1, _, h2, _⟩ := C82_downselect_partial (firstEnv_ok (X := Nat)) (m := "medrand") (limit := 50)
    (by norm_num) (rows := List.range 100) (.inr (.inl rfl))
  exact ⟨out, h1, by simpa using h2⟩

end Lop.Props
