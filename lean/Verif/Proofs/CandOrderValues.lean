import Verif.Model.InfoGain
import Verif.Model.ExpAlign
import Verif.Spec.ExpAlign
import Verif.Proofs.GVUcb
import Mathlib.Data.List.Nodup
import Mathlib.Algebra.BigOperators.Fin

/-! # Helper lemmas: the value of a query does not depend on how the candidates are numbered or listed -/

namespace Lop

open Lop.Spec Finset

/-- Two duplicate-free listings of the same things. -/
theorem listing_equiv {α : Type*} [DecidableEq α] (π : Equiv.Perm α) {Q Q' : List α} (hn : Q.Nodup) (hn' : Q'.Nodup)
    (h : ∀ x, π x ∈ Q' ↔ x ∈ Q) : ∃ e : Fin Q.length ≃ Fin Q'.length, ∀ j, Q'[e j] = π Q[j] := by
  refine ⟨(hn.getEquiv Q).trans ((π.subtypeEquiv fun x => (h x).symm).trans (hn'.getEquiv Q').symm), fun j => ?_⟩
  have := congrArg Subtype.val ((hn'.getEquiv Q').apply_symm_apply ((π.subtypeEquiv fun x => (h x).symm) (hn.getEquiv Q j)))
  simp only [List.Nodup.getEquiv_apply_coe] at this
  simpa using this

theorem humanGain_equiv {s n n' : Nat} (M : Nat) (peak : ℝ) (r : Fin s → Fin n → ℝ) (r' : Fin s → Fin n' → ℝ)
    (e : Fin n ≃ Fin n') (h : ∀ i j, r' i (e j) = r i j) :
    ((pHumanChoice2 r' peak).map fun p => (∑ i, ∑ j, p i j * Real.logb 2 (M * p i j / ∑ k, p k j)) / (M : ℝ)) =
      (pHumanChoice2 r peak).map fun p => (∑ i, ∑ j, p i j * Real.logb 2 (M * p i j / ∑ k, p k j)) / (M : ℝ) := by
  obtain rfl : n = n' := by simpa using Fintype.card_congr e
  unfold pHumanChoice2
  by_cases hne : (univ : Finset (Fin s × Fin n)).Nonempty
  · have hmx : (univ.sup' hne fun q : Fin s × Fin n => r' q.1 q.2) = univ.sup' hne fun q : Fin s × Fin n => r q.1 q.2 := by
      apply le_antisymm
      · refine sup'_le _ _ fun q _ => ?_
        have := h q.1 (e.symm q.2)
        rw [e.apply_symm_apply] at this
        rw [this]
        exact le_sup' (fun q : Fin s × Fin n => r q.1 q.2) (mem_univ (q.1, e.symm q.2))
      · refine sup'_le _ _ fun q _ => ?_
        rw [← h]
        exact le_sup' (fun q : Fin s × Fin n => r' q.1 q.2) (mem_univ (q.1, e q.2))
    rw [dif_pos hne, dif_pos hne]
    simp only [Except.map, hmx]
    congr 1
    congr 1
    refine sum_congr rfl fun i _ => ?_
    have hs : ∀ i, ∑ k, Real.exp ((r' i k - univ.sup' hne fun q : Fin s × Fin n => r q.1 q.2) * peak) =
        ∑ k, Real.exp ((r i k - univ.sup' hne fun q : Fin s × Fin n => r q.1 q.2) * peak) := fun i => by
      rw [← Equiv.sum_comp e]
      exact sum_congr rfl fun k _ => by rw [h]
    rw [← Equiv.sum_comp e]
    simp only [hs, h]
  · rw [dif_neg hne, dif_neg hne]

theorem mutualInfoGain_renum {s N : Nat} (M : Nat) (peak : ℝ) {w w' : Fin s → Fin N → ℝ} (π : Equiv.Perm (Fin N))
    (hw : ∀ i j, w' i (π j) = w i j) {Q Q' : List (Fin N)} (hn : Q.Nodup) (hn' : Q'.Nodup)
    (h : ∀ x, π x ∈ Q' ↔ x ∈ Q) : mutualInfoGain M peak w' Q' = mutualInfoGain M peak w Q := by
  obtain ⟨e, he⟩ := listing_equiv π hn hn' h
  exact humanGain_equiv M peak _ _ e fun i j => by rw [he, hw]

theorem prodOthers_renum {N : Nat} {g g' : Fin N → Fin N → ℝ} {π : Equiv.Perm (Fin N)} (hg : ∀ a b, g' (π a) (π b) = g a b)
    {Q Q' : List (Fin N)} (e : Fin Q.length ≃ Fin Q'.length) (he : ∀ j, Q'[e j] = π Q[j]) (i : Fin Q.length) :
    ∏ j ∈ univ.erase (e i), g' Q'[e i] Q'[j] = ∏ j ∈ univ.erase i, g Q[i] Q[j] := by
  refine (prod_bij (fun j _ => e j) ?_ ?_ ?_ ?_).symm
  · intro j hj
    simpa using hj
  · intro a _ b _ hab
    exact e.injective hab
  · intro b hb
    exact ⟨e.symm b, by simpa [Equiv.symm_apply_eq] using hb, e.apply_symm_apply b⟩
  · intro j _
    rw [he, he, hg]

theorem clippedEntropy_renum {N : Nat} (minLog : ℝ) (π : Equiv.Perm (Fin N)) {p p' : Fin N → ℝ} (h : ∀ b, p' (π b) = p b) :
    clippedEntropy minLog p' = clippedEntropy minLog p := by
  unfold clippedEntropy
  rw [← Equiv.sum_comp π]
  simp only [h]

theorem pqB_renum {N : Nat} (meth : PQBMethod) {P P' : Fin N → Fin N → ℝ} {π : Equiv.Perm (Fin N)}
    (hP : ∀ a b, P' (π a) (π b) = P a b) {Q Q' : List (Fin N)} (h : ∀ x, π x ∈ Q' ↔ x ∈ Q)
    (e : Fin Q.length ≃ Fin Q'.length) (he : ∀ j, Q'[e j] = π Q[j]) (i : Fin Q.length) (B : Fin N) :
    pqB meth P' Q' (e i) (π B) = pqB meth P Q i B := by
  unfold pqB
  have hw : winProd P' Q' (e i) = winProd P Q i := prodOthers_renum hP e he i
  simp only [h, hw]
  have hc : ∀ c : ℝ, (∏ j ∈ univ.erase (e i), if Q'[e i] = π B then c else P' Q'[e i] Q'[j]) =
      ∏ j ∈ univ.erase i, if Q[i] = B then c else P Q[i] Q[j] := fun c =>
    prodOthers_renum (g := fun a b => if a = B then c else P a b) (g' := fun a b => if a = π B then c else P' a b)
      (by simp [hP]) e he i
  cases meth <;> simp only [hc]

theorem calcHBQ_renum {N : Nat} (minLog : ℝ) (meth : PQBMethod) {pB pB' : Fin N → ℝ} {P P' : Fin N → Fin N → ℝ}
    (π : Equiv.Perm (Fin N)) (hB : ∀ b, pB' (π b) = pB b) (hP : ∀ a b, P' (π a) (π b) = P a b) {Q Q' : List (Fin N)}
    (hn : Q.Nodup) (hn' : Q'.Nodup) (h : ∀ x, π x ∈ Q' ↔ x ∈ Q) :
    calcHBQ minLog meth pB' P' Q' = calcHBQ minLog meth pB P Q := by
  obtain ⟨e, he⟩ := listing_equiv π hn hn' h
  have hw : ∀ i, winProd P' Q' (e i) = winProd P Q i := prodOthers_renum hP e he
  have hws : ∑ k, winProd P' Q' k = ∑ k, winProd P Q k := by
    rw [← Equiv.sum_comp e]
    simp only [hw]
  have hq := pqB_renum meth hP h e he
  have hqs : ∀ B, ∑ k, pqB meth P' Q' k (π B) = ∑ k, pqB meth P Q k B := fun B => by
    rw [← Equiv.sum_comp e]
    simp only [hq]
  simp only [calcHBQ]
  rw [← Equiv.sum_comp e]
  simp only [hw, hws]
  refine sum_congr rfl fun i _ => ?_
  congr 1
  refine clippedEntropy_renum minLog π fun b => ?_
  simp only [hq, hqs, hB]
  congr 1
  rw [← Equiv.sum_comp π]
  simp only [hq, hqs, hB]

theorem chooseProb_renum {N : Nat} {P P' : Fin N → Fin N → ℝ} {π : Equiv.Perm (Fin N)}
    (hP : ∀ a b, P' (π a) (π b) = P a b) {Q Q' : List (Fin N)} (e : Fin Q.length ≃ Fin Q'.length)
    (he : ∀ j, Q'[e j] = π Q[j]) (i : Fin Q.length) : chooseProb P' Q' (e i) = chooseProb P Q i := by
  unfold chooseProb
  have hw := prodOthers_renum hP e he
  rw [hw, ← Equiv.sum_comp e]
  simp only [hw]

theorem covDet_renum {π : Equiv.Perm Nat} {c c' : Nat → Nat → ℝ} {l l' : List Nat}
    (hc : ∀ a ∈ l, ∀ b ∈ l, c' (π a) (π b) = c a b) (hn : l.Nodup) (hn' : l'.Nodup) (h : ∀ x, π x ∈ l' ↔ x ∈ l) : covDet c' l' = covDet c l := by
  obtain ⟨e, he⟩ := listing_equiv π hn hn' h
  rw [covDet_eq, covDet_eq, ← famCov_det_equiv c' (famOf l') e]
  congr 1
  ext a b
  simp only [famCov, famOf, Function.comp, Matrix.of_apply]
  have h1 : l'.get (e a) = π (l.get a) := he a
  have h2 : l'.get (e b) = π (l.get b) := he b
  have h3 : c' (l'.get (e a)) (l'.get (e b)) = c (l.get a) (l.get b) := by
    rw [h1, h2, hc _ (List.get_mem _ _) _ (List.get_mem _ _)]
  exact h3

/-- The end of the greedy steps: an index with the largest value, and the value. -/
noncomputable def bestOf {α : Type} (ind : List α) (val : α → ℝ) : Except PyErr (α × ℝ) := do
  let b ← npArgmax (ind.map val)
  match ind[b]?, (ind.map val)[b]? with
  | some i, some g => pure (i, g)
  | _, _ => .error .indexError

theorem bestOf_spec {α : Type} {ind : List α} (h : ind ≠ []) (val : α → ℝ) :
    ∃ i ∈ ind, bestOf ind val = .ok (i, val i) ∧ ∀ j ∈ ind, val j ≤ val i := by
  obtain ⟨b, hb⟩ := npArgmax_isOk (l := ind.map val) (by simpa using h)
  obtain ⟨x, hx, hmax, -⟩ := npArgmax_spec hb
  have hx2 := hx
  rw [List.getElem?_map, Option.map_eq_some_iff] at hx2
  obtain ⟨i, hbi, rfl⟩ := hx2
  refine ⟨i, List.mem_of_getElem? hbi, ?_, fun j hj => hmax _ (List.mem_map_of_mem hj)⟩
  simp [bestOf, hb, hbi, bind, Except.bind, pure, Except.pure]

theorem bestOf_renum {α : Type} (π : Equiv.Perm α) {ind ind' : List α} (hm : ∀ x, π x ∈ ind' ↔ x ∈ ind) {val val' : α → ℝ}
    (hv : ∀ i ∈ ind, val' (π i) = val i) (hinj : ∀ i ∈ ind, ∀ j ∈ ind, val i = val j → i = j) :
    bestOf ind' val' = (bestOf ind val).map fun q => (π q.1, q.2) := by
  by_cases h : ind = []
  · have h' : ind' = [] := List.eq_nil_iff_forall_not_mem.2 fun x hx => by
      obtain ⟨y, rfl⟩ := π.surjective x
      rw [hm, h] at hx
      exact absurd hx List.not_mem_nil
    rw [h, h']
    rfl
  · have h' : ind' ≠ [] := by
      obtain ⟨x, hx⟩ := List.exists_mem_of_ne_nil ind h
      exact List.ne_nil_of_mem ((hm x).2 hx)
    obtain ⟨i, hi, e1, hi2⟩ := bestOf_spec h val
    obtain ⟨k, hk, e2, hk2⟩ := bestOf_spec h' val'
    obtain ⟨j, rfl⟩ := π.surjective k
    have hj := (hm j).1 hk
    have h1 := hk2 _ ((hm i).2 hi)
    rw [hv i hi, hv j hj] at h1
    have := hinj i hi j hj (le_antisymm h1 (hi2 j hj))
    subst this
    rw [e1, e2, hv i hi]
    rfl

end Lop
