import Verif.Model.OrdProbit
import Verif.Spec.OrdProbit
import Verif.Spec.Calculus
import Verif.Proofs.PrefProbit

/-! # Assignment through index arrays; separable sums -/

namespace Lop

open Spec

variable {m : Nat}

theorem lastValue_concat {κ : Type} [DecidableEq κ] (l : List (κ × ℝ)) (e : κ × ℝ) (k : κ) :
    lastValue (l ++ [e]) k = if e.1 = k then e.2 else lastValue l k := by
  by_cases h : e.1 = k <;> simp [lastValue, h]

theorem assignVec_eq (l : List (Fin m × ℝ)) (i : Fin m) : assignVec l i = lastValue l i := by
  induction l using List.reverseRecOn with
  | nil => simp [assignVec, lastValue]
  | append_singleton l e ih =>
    rw [lastValue_concat, assignVec, List.foldl_append]
    simp only [List.foldl_cons, List.foldl_nil, Function.update_apply]
    rw [← ih]
    by_cases h : e.1 = i
    · simp [h]
    · simp [h, Ne.symm h, assignVec]

theorem foldl_assign2 (l : List ((Fin m × Fin m) × ℝ)) (r c : Fin m) :
    (l.foldl (fun (M : Fin m → Fin m → ℝ) a r c => if (r, c) = a.1 then a.2 else M r c)
      fun _ _ => 0) r c = lastValue l (r, c) := by
  induction l using List.reverseRecOn with
  | nil => simp [lastValue]
  | append_singleton l e ih =>
    rw [lastValue_concat, List.foldl_append]
    simp only [List.foldl_cons, List.foldl_nil]
    rw [ih]
    by_cases h : e.1 = (r, c)
    · simp [h]
    · simp [h, Ne.symm h]

theorem lastValue_append {κ : Type} [DecidableEq κ] (l1 l2 : List (κ × ℝ)) (k : κ)
    (h : ∀ e ∈ l2, e.1 ≠ k) : lastValue (l1 ++ l2) k = lastValue l1 k := by
  have : l2.filter (fun e => e.1 = k) = [] := by
    rw [List.filter_eq_nil_iff]; intro e he; simpa using h e he
  simp [lastValue, this]

theorem lastValue_hit {κ : Type} [DecidableEq κ] (l1 l2 : List (κ × ℝ)) (k : κ) (x : ℝ)
    (h : ∀ e ∈ l2, e.1 ≠ k) : lastValue (l1 ++ (k, x) :: l2) k = x := by
  rw [show l1 ++ (k, x) :: l2 = (l1 ++ [(k, x)]) ++ l2 by simp, lastValue_append _ _ _ h,
    lastValue_concat]
  simp

theorem lastValue_all {κ : Type} [DecidableEq κ] (l : List (κ × ℝ)) (k : κ)
    (h : ∀ e ∈ l, e.1 = k → e.2 = 0) : lastValue l k = 0 := by
  unfold lastValue
  split
  · next e he =>
    have := List.mem_of_getLast? he
    simp only [List.mem_filter, decide_eq_true_eq] at this
    exact h e this.1 this.2
  · rfl

theorem exists_last_split {α : Type} (p : α → Prop) [DecidablePred p] (l : List α) (h : ∃ a ∈ l, p a) :
    ∃ l1 a l2, l = l1 ++ a :: l2 ∧ p a ∧ ∀ b ∈ l2, ¬ p b := by
  induction l with
  | nil => simp at h
  | cons a l ih =>
    by_cases hl : ∃ b ∈ l, p b
    · obtain ⟨l1, b, l2, rfl, hb, h2⟩ := ih hl
      exact ⟨a :: l1, b, l2, rfl, hb, h2⟩
    · obtain ⟨b, hb, hp⟩ := h
      rcases List.mem_cons.1 hb with rfl | hb
      · exact ⟨[], b, l, rfl, hp, fun c hc hpc => hl ⟨c, hc, hpc⟩⟩
      · exact absurd ⟨b, hb, hp⟩ hl

theorem mem_of_zipIdx {α : Type} {l : List α} {k : Nat} {a : α} {i : Nat} (h : (a, i) ∈ l.zipIdx k) :
    a ∈ l := by
  have := List.mem_map_of_mem (f := Prod.fst) h
  simpa using this

/-- The grid assignment: the last value on the diagonal, 0 elsewhere. -/
theorem assignGrid_eq (l : List (Fin m × ℝ)) (r c : Fin m) :
    assignGrid l r c = if r = c then lastValue l r else 0 := by
  rw [assignGrid, foldl_assign2]
  split
  · next hrc =>
    subst hrc
    by_cases hex : ∃ e ∈ l, e.1 = r
    · obtain ⟨l1, e, l2, rfl, he, h2⟩ := exists_last_split (fun e : Fin m × ℝ => e.1 = r) l hex
      obtain ⟨k, x⟩ := e
      subst he
      rw [lastValue_hit _ _ _ _ h2]
      have hz : (l1 ++ (k, x) :: l2).zipIdx =
          l1.zipIdx ++ ((k, x), l1.length) :: l2.zipIdx (l1.length + 1) := by
        rw [List.zipIdx_append]; simp
      have h2' : ∀ q ∈ l2.zipIdx (l1.length + 1), q.1.1 ≠ k := by
        rintro ⟨q, i⟩ hq
        exact h2 q (mem_of_zipIdx hq)
      rw [hz]
      rw [List.flatMap_append, List.flatMap_cons, ← List.append_assoc, lastValue_append]
      · generalize List.flatMap _ l1.zipIdx = P
        dsimp only
        rw [List.map_append, List.map_cons, ← List.append_assoc]
        simp only [if_true]
        refine lastValue_hit _ _ _ _ ?_
        intro e he
        obtain ⟨⟨b, j⟩, hb, rfl⟩ := List.mem_map.1 he
        intro h
        exact h2' _ hb (Prod.mk.inj h).1
      · intro e he
        obtain ⟨⟨a, i⟩, ha, h'⟩ := List.mem_flatMap.1 he
        obtain ⟨⟨b, j⟩, hb, rfl⟩ := List.mem_map.1 h'
        intro h
        exact h2' _ ha (Prod.mk.inj h).2
    · rw [lastValue_all, lastValue_all]
      · intro e he h; exact absurd ⟨e, he, h⟩ hex
      · intro e he h
        obtain ⟨⟨a, i⟩, ha, h'⟩ := List.mem_flatMap.1 he
        obtain ⟨⟨b, j⟩, hb, rfl⟩ := List.mem_map.1 h'
        simp only [Prod.mk.injEq] at h
        exact absurd ⟨a, mem_of_zipIdx ha, h.2⟩ hex
  · next hrc =>
    refine lastValue_all _ _ fun e he h => ?_
    obtain ⟨⟨a, i⟩, ha, h'⟩ := List.mem_flatMap.1 he
    obtain ⟨⟨b, j⟩, hb, rfl⟩ := List.mem_map.1 h'
    simp only [Prod.mk.injEq] at h
    by_cases hij : i = j
    · subst hij
      rw [List.mem_zipIdx_iff_getElem?] at ha hb
      simp only at ha hb
      rw [ha] at hb
      cases hb
      exact absurd (h.1.symm.trans h.2) hrc
    · simp [hij]

/-- With pairwise different keys the last value is the sum of the values. -/
theorem lastValue_nodup {κ : Type} [DecidableEq κ] (l : List (κ × ℝ)) (h : (l.map (·.1)).Nodup) (k : κ) :
    lastValue l k = (l.map fun e => if e.1 = k then e.2 else 0).sum := by
  induction l using List.reverseRecOn with
  | nil => simp [lastValue]
  | append_singleton l e ih =>
    rw [List.map_append, List.nodup_append] at h
    obtain ⟨h1, -, h3⟩ := h
    rw [lastValue_concat, List.map_append, List.sum_append, ← ih h1]
    by_cases he : e.1 = k
    · have : lastValue l k = 0 := lastValue_all _ _ fun a ha hak =>
        absurd (hak.trans he.symm) (h3 _ (List.mem_map_of_mem ha) _ (by simp))
      simp [he, this]
    · simp [he]

/-- Gradient of a sum of functions of single coordinates. -/
theorem grad_separable {ι : Type} (l : List ι) (ix : ι → Fin m) (q d : ι → ℝ → ℝ) (F : Fin m → ℝ)
    (h : ∀ p ∈ l, HasDerivAt (q p) (d p (F (ix p))) (F (ix p))) :
    IsGradientAt (fun F => (l.map fun p => q p (F (ix p))).sum)
      (fun i => (l.map fun p => if ix p = i then d p (F (ix p)) else 0).sum) F := by
  induction l with
  | nil =>
    simp only [List.map_nil, List.sum_nil]
    unfold IsGradientAt
    refine (hasFDerivAt_const (0 : ℝ) F).congr_fderiv ?_
    ext v; simp
  | cons p l ih =>
    have h1 := h p (by simp)
    have h2 := ih fun q hq => h q (by simp [hq])
    have hp : HasFDerivAt (fun F : Fin m → ℝ => F (ix p)) (ContinuousLinearMap.proj (R := ℝ) (ix p)) F :=
      (ContinuousLinearMap.proj (R := ℝ) (φ := fun _ : Fin m => ℝ) (ix p)).hasFDerivAt
    have h3 := (HasDerivAt.comp_hasFDerivAt (f := fun F : Fin m → ℝ => F (ix p)) F h1 hp).add h2
    refine h3.congr_fderiv ?_
    ext v
    simp [Finset.sum_add_distrib, add_mul, Finset.sum_ite_eq, ite_mul]

theorem Spec.IsGradientAt.unique_entry {f : (Fin m → ℝ) → ℝ} {g g' : Fin m → ℝ} {F : Fin m → ℝ}
    (h : IsGradientAt f g F) (h' : IsGradientAt f g' F) (i : Fin m) : g i = g' i := by
  have := congrArg (fun L : (Fin m → ℝ) →L[ℝ] ℝ => L (Pi.single i 1)) (HasFDerivAt.unique h h')
  simpa [Pi.single_apply] using this

theorem Spec.IsHessianAt.unique_entry {f : (Fin m → ℝ) → ℝ} {H H' : Fin m → Fin m → ℝ} {F : Fin m → ℝ}
    (h : IsHessianAt f H F) (h' : IsHessianAt f H' F) (i j : Fin m) : H i j = H' i j := by
  obtain ⟨G, hG, hJ⟩ := h
  obtain ⟨G', hG', hJ'⟩ := h'
  have he : (fun F => G F i) =ᶠ[nhds F] fun F => G' F i := by
    filter_upwards [hG, hG'] with x hx hx' using hx.unique_entry hx' i
  exact Spec.IsGradientAt.unique_entry (hJ i)
    (HasFDerivAt.congr_of_eventuallyEq (hJ' i) he) j

/-- Hessian of a sum of functions of single coordinates. -/
theorem hess_separable {ι : Type} (l : List ι) (ix : ι → Fin m) (q d : ι → ℝ → ℝ) (d2 : ι → ℝ)
    (F : Fin m → ℝ)
    (h : ∀ p ∈ l, ∀ᶠ x in nhds (F (ix p)), HasDerivAt (q p) (d p x) x)
    (h2 : ∀ p ∈ l, HasDerivAt (d p) (d2 p) (F (ix p))) :
    IsHessianAt (fun F => (l.map fun p => q p (F (ix p))).sum)
      (fun i j => (l.map fun p => if ix p = i ∧ ix p = j then d2 p else 0).sum) F := by
  refine ⟨fun F i => (l.map fun p => if ix p = i then d p (F (ix p)) else 0).sum, ?_, ?_⟩
  · have : ∀ᶠ G in nhds F, ∀ p ∈ l, HasDerivAt (q p) (d p (G (ix p))) (G (ix p)) := by
      clear h2
      induction l with
      | nil => simp
      | cons p l ih =>
        have h1 := (continuous_apply (ix p)).continuousAt.eventually (h p (by simp))
        filter_upwards [h1, ih fun q hq => h q (by simp [hq])] with G hG1 hG2 q hq
        rcases List.mem_cons.1 hq with rfl | hq
        · exact hG1
        · exact hG2 q hq
    filter_upwards [this] with G hG using grad_separable l ix q d G hG
  · intro i
    have := grad_separable l ix (fun p x => if ix p = i then d p x else 0)
      (fun p _ => if ix p = i then d2 p else 0) F (by
        intro p hp
        by_cases hi : ix p = i
        · simpa [hi] using h2 p hp
        · simpa [hi] using hasDerivAt_const _ _)
    have he : (fun j => (l.map fun p => if ix p = i ∧ ix p = j then d2 p else 0).sum) =
        fun j => (l.map fun p => if ix p = j then if ix p = i then d2 p else 0 else 0).sum := by
      funext j
      refine sum_map_congr fun p _ => ?_
      by_cases hi : ix p = i <;> by_cases hj : ix p = j <;> simp [hi, hj]
    show IsGradientAt _ (fun j => (l.map fun p => if ix p = i ∧ ix p = j then d2 p else 0).sum) F
    rw [he]
    exact this

end Lop
