import Verif.Model.RunResults
import Verif.Spec.RunResults
import Mathlib.Data.List.Perm.Basic
import Mathlib.Data.List.Nodup
import Mathlib.Data.List.TakeDrop
import Mathlib.Data.List.Range
import Mathlib.Data.List.FinRange
import Mathlib.Data.Finset.Card
import Mathlib.Data.Finset.Range
import Mathlib.Data.Finset.Dedup

namespace Lop

open Spec (passes)

variable {V : Type*}

theorem mem_assignOrder (key : ResKey) : key ∈ assignOrder := by cases key <;> decide

theorem writeRun_all (arr : ResKey → List V) (j n : Nat) (hn : assignOrder.length ≤ n) (r : ResKey → V) (key : ResKey) :
    writeRun arr j n r key = (arr key).set j (r key) := by
  unfold writeRun
  rw [List.take_of_length_le hn, if_pos (mem_assignOrder key)]

/-- Arrays after the runs `pre`. -/
def arrAfter (junk : ResKey → List V) (pre : List (ResKey → V)) : ResKey → List V :=
  fun key => pre.map (fun r => r key) ++ (junk key).drop pre.length

theorem set_append_drop (a : List V) (l : List V) (v : V) (h : a.length < l.length) :
    (a ++ l.drop a.length).set a.length v = (a ++ [v]) ++ l.drop (a.length + 1) := by
  rw [List.set_append_right _ _ le_rfl, Nat.sub_self, List.drop_eq_getElem_cons h, List.set_cons_zero]
  simp

theorem arrAfter_step (junk : ResKey → List V) (pre : List (ResKey → V)) (r : ResKey → V)
    (h : ∀ key, pre.length < (junk key).length) :
    writeRun (arrAfter junk pre) pre.length assignOrder.length r = arrAfter junk (pre ++ [r]) := by
  funext key
  rw [writeRun_all _ _ _ le_rfl]
  have := set_append_drop (pre.map fun r => r key) (junk key) (r key) (by simpa using h key)
  simp only [List.length_map] at this
  unfold arrAfter
  rw [this]
  simp

theorem saveFirst_arrAfter (junk : ResKey → List V) (pre : List (ResKey → V)) (r : ResKey → V) :
    saveFirst (arrAfter junk (pre ++ [r])) pre.length = fun key => (pre ++ [r]).map (fun q => q key) := by
  funext key
  unfold saveFirst arrAfter
  rw [List.take_append_of_le_length (by simp), List.take_of_length_le (by simp)]

/-- What is in the file after the runs `rs`. -/
def fileOf (rs : List (ResKey → V)) : Option (ResKey → List V) :=
  if rs = [] then none else some fun key => rs.map fun r => r key

theorem runsLoop_done (junk : ResKey → List V) (tail : List (RunEnd V)) (rs : List (ResKey → V)) :
    ∀ (pre : List (ResKey → V)), (∀ key, (pre.length + rs.length) ≤ (junk key).length) →
      runsLoop (arrAfter junk pre) (fileOf pre) pre.length (rs.map .done ++ tail)
        = runsLoop (arrAfter junk (pre ++ rs)) (fileOf (pre ++ rs)) (pre ++ rs).length tail := by
  induction rs with
  | nil => intro pre _; simp
  | cons r rs ih =>
    intro pre h
    simp only [List.map_cons, List.cons_append, runsLoop]
    rw [arrAfter_step junk pre r (fun key => by have := h key; simp at this; omega), saveFirst_arrAfter]
    have hf : (some fun key => (pre ++ [r]).map (fun q => q key)) = fileOf (pre ++ [r]) := by
      unfold fileOf
      rw [if_neg (by simp)]
    have hl : pre.length + 1 = (pre ++ [r]).length := by simp
    rw [hf, hl, ih (pre ++ [r]) (fun key => by have := h key; simp at this ⊢; omega)]
    simp

theorem mainRuns_done (junk : ResKey → List V) (rs : List (ResKey → V)) (tail : List (RunEnd V))
    (h : ∀ key, rs.length ≤ (junk key).length) :
    mainRuns junk (rs.map .done ++ tail) = runsLoop (arrAfter junk rs) (fileOf rs) rs.length tail := by
  have := runsLoop_done junk tail rs [] (fun key => by simpa using h key)
  have h0 : arrAfter junk ([] : List (ResKey → V)) = junk := by funext key; simp [arrAfter]
  have h1 : fileOf ([] : List (ResKey → V)) = none := by simp [fileOf]
  simp only [List.length_nil, List.nil_append, h0, h1] at this
  exact this

/-! ## The problems of a run -/

variable {P S ρ : Type*}

theorem storeFigures_length (w : Nat) (row out : List ρ) (h : storeFigures w row = .ok out) : out.length = w := by
  unfold storeFigures at h
  split at h
  · rename_i hw; cases h; exact hw
  · split at h
    · cases h; simp
    · cases h

theorem problemStep_ok {step : P → S → Except PyErr S} {evalF : S → Except PyErr (List ρ)} {probs : List P} {w i : Nat} {s s' : S}
    {row : List ρ} (h : problemStep step evalF probs w i s = .ok (s', row)) :
    ∃ p, probs[i]? = some p ∧ step p s = .ok s' ∧ ∃ r, evalF s' = .ok r ∧ storeFigures w r = .ok row := by
  unfold problemStep at h
  split at h
  · cases h
  · rename_i p hp
    split at h
    · cases h
    · rename_i s1 hs
      split at h
      · cases h
      · rename_i r hr
        split at h
        · cases h
        · rename_i row1 hw
          cases h
          exact ⟨p, hp, hs, r, hr, hw⟩

theorem problemLoop_ok {step : P → S → Except PyErr S} {evalF : S → Except PyErr (List ρ)} {probs : List P} {w : Nat} :
    ∀ (order : List Nat) (s s' : S) (rows : List (List ρ)), problemLoop step evalF probs w order s = .ok (s', rows) →
      ∃ ps : List P, order.map (fun i => probs[i]?) = ps.map some ∧ passes step ps s = .ok s' ∧ rows.length = order.length ∧
        ∀ (k : Nat) row, rows[k]? = some row → ∃ sk r, passes step (ps.take (k + 1)) s = .ok sk ∧ evalF sk = .ok r ∧
          storeFigures w r = .ok row := by
  intro order
  induction order with
  | nil =>
    intro s s' rows h
    simp only [problemLoop, Except.ok.injEq, Prod.mk.injEq] at h
    obtain ⟨rfl, rfl⟩ := h
    exact ⟨[], by simp, rfl, rfl, by simp⟩
  | cons i rest ih =>
    intro s s' rows h
    unfold problemLoop at h
    split at h
    · cases h
    · rename_i s1 row1 h1
      split at h
      · cases h
      · rename_i s2 rows2 h2
        cases h
        obtain ⟨p, hp, hs, r, hr, hw⟩ := problemStep_ok h1
        obtain ⟨ps, e1, e2, e3, e4⟩ := ih _ _ _ h2
        refine ⟨p :: ps, by simp [hp, e1], by simp [passes, hs, e2], by simp [e3], ?_⟩
        intro k row hk
        cases k with
        | zero =>
          simp only [List.getElem?_cons_zero, Option.some.injEq] at hk
          subst hk
          exact ⟨s1, r, by simp [passes, hs], hr, hw⟩
        | succ k =>
          simp only [List.getElem?_cons_succ] at hk
          obtain ⟨sk, q, a, b, c⟩ := e4 k row hk
          exact ⟨sk, q, by simpa [passes, hs] using a, b, c⟩

theorem problemLoop_total {step : P → S → Except PyErr S} {evalF : S → Except PyErr (List ρ)} {probs : List P} {w : Nat}
    (hstep : ∀ p ∈ probs, ∀ s, ∃ s', step p s = .ok s') (heval : ∀ s, ∃ row, evalF s = .ok row ∧ row.length = w) :
    ∀ (order : List Nat) (s : S), (∀ i ∈ order, i < probs.length) → ∃ out, problemLoop step evalF probs w order s = .ok out := by
  intro order
  induction order with
  | nil => intro s _; exact ⟨_, rfl⟩
  | cons i rest ih =>
    intro s hi
    have hlt : i < probs.length := hi i (by simp)
    obtain ⟨s1, h1⟩ := hstep probs[i] (List.getElem_mem hlt) s
    obtain ⟨row, h2, h3⟩ := heval s1
    obtain ⟨⟨s2, rows⟩, h4⟩ := ih s1 (fun j hj => hi j (by simp [hj]))
    refine ⟨(s2, row :: rows), ?_⟩
    simp [problemLoop, problemStep, hlt, h1, h2, storeFigures, h3, h4]

theorem map_getElem?_perm (l : List P) (order : List Nat) (ps : List P) (hn : order.Nodup) (hl : order.length = l.length)
    (hb : ∀ i ∈ order, i < l.length) (h : order.map (fun i => l[i]?) = ps.map some) : List.Perm ps l := by
  have hp : List.Perm order (List.range l.length) := by
    refine (List.perm_ext_iff_of_nodup hn List.nodup_range).2 ?_
    have hsub : order.toFinset ⊆ Finset.range l.length := by
      intro i hi; simpa using hb i (by simpa using hi)
    have hc : (Finset.range l.length).card ≤ order.toFinset.card := by
      rw [List.toFinset_card_of_nodup hn, hl]; simp
    have := Finset.eq_of_subset_of_card_le hsub hc
    intro i
    rw [← List.mem_toFinset, this]; simp
  have h2 : List.Perm (ps.map some) (l.map some) := by
    rw [← h]
    refine (hp.map _).trans (List.Perm.of_eq ?_)
    apply List.ext_getElem
    · simp
    · intro n h1 h2
      simp at h1 h2 ⊢
  have := h2.filterMap id
  simpa [List.filterMap_map] using this

end Lop
