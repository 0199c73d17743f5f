import Verif.Model.HyperSearch
import Verif.Spec.HyperSearch
import Verif.Proofs.Hyper
import Verif.Props.Sampling
import Verif.Props.Hyper
import Mathlib.Tactic.Linarith
import Mathlib.Tactic.Positivity
import Mathlib.Tactic.NormNum

/-! Helper lemmas for the hyper-parameter priors and the search. -/

namespace Lop

open Spec Props Filter Topology

variable {P : Type}

noncomputable section

/-- The contribution of one parameter to `hyper_liklihood`. -/
def slotTerm (s : HyperState ℝ P) : Slot → ℝ → EReal
  | .prefSigma, x => if x ≤ 0 then ((-5000 : ℝ) : EReal) else 0
  | .ordSigma, _ => 0
  | .ordB, _ => 0
  | .absSigma, x => logPdfGamma x 1 1
  | .absV, x => if x < 0 then ((-5000 : ℝ) : EReal) else 0
  | .kern i j, x => match priorOf s (.kern i j) with
    | some q => logPdfGamma x q.1 q.2
    | none => 0

/-- The contribution of one parameter to `grad_hyper_liklihood`. -/
def slotGrad (s : HyperState ℝ P) : Slot → ℝ → ℝ
  | .prefSigma, _ => 0
  | .ordSigma, _ => 0
  | .ordB, _ => 0
  | .absSigma, x => dLogPdfGamma x 1 1
  | .absV, x => if s.abs.vOnly then 0 else dLogPdfGamma x 2 25
  | .kern i j, x => match priorOf s (.kern i j) with
    | some q => dLogPdfGamma x q.1 q.2
    | none => 0

def kernSlots (k : KExpr ℝ P) : List Slot :=
  (leaves k).zipIdx.flatMap fun (k, i) => (List.range (arity k)).map fun j => .kern i j

theorem expr_paramLikli (k : KExpr ℝ P) : k.paramLikli = ((leaves k).map KLeaf.paramLikli).sum := by
  induction k with
  | leaf k => simp [KExpr.paramLikli, leaves]
  | dual op a b iha ihb => simp [KExpr.paramLikli, leaves, iha, ihb]

theorem expr_gradParamLikli (k : KExpr ℝ P) :
    k.gradParamLikli = (leaves k).flatMap KLeaf.gradParamLikli := by
  induction k with
  | leaf k => simp [KExpr.gradParamLikli, leaves]
  | dual op a b iha ihb => simp [KExpr.gradParamLikli, leaves, iha, ihb]

theorem sum_flatMap {α : Type} (l : List α) (f : α → List EReal) :
    (l.flatMap f).sum = (l.map fun a => (f a).sum).sum := by
  induction l with
  | nil => rfl
  | cons a l ih => simp [ih]

theorem kern_terms (s : HyperState ℝ P) :
    ((kernSlots s.kern).map fun slot => slotTerm s slot ((readSlot s slot).getD 0)).sum =
      s.kern.paramLikli := by
  rw [expr_paramLikli, kernSlots, List.map_flatMap, sum_flatMap]
  congr 1
  have : (leaves s.kern).map KLeaf.paramLikli =
      (leaves s.kern).zipIdx.map (fun p => KLeaf.paramLikli p.1) := by
    conv_lhs => rw [← List.zipIdx_map_fst 0 (leaves s.kern), List.map_map]
    rfl
  rw [this]
  apply List.map_congr_left
  rintro ⟨k, i⟩ hki
  have hk : (leaves s.kern)[i]? = some k := by
    have := List.mem_zipIdx_iff_getElem?.1 hki
    simpa using this
  cases k <;>
    simp [arity, List.range_succ, readSlot, hk, slotTerm, priorOf, field, KLeaf.paramLikli, add_assoc]

theorem kern_grads (s : HyperState ℝ P) :
    ((kernSlots s.kern).map fun slot => slotGrad s slot ((readSlot s slot).getD 0)) =
      s.kern.gradParamLikli := by
  rw [expr_gradParamLikli, kernSlots, List.map_flatMap, ← flatMap_zipIdx_fst (leaves s.kern) 0]
  apply List.flatMap_congr
  rintro ⟨k, i⟩ hki
  have hk : (leaves s.kern)[i]? = some k := by
    have := List.mem_zipIdx_iff_getElem?.1 hki
    simpa using this
  cases k <;>
    simp [arity, List.range_succ, readSlot, hk, slotGrad, priorOf, field, KLeaf.gradParamLikli]

theorem hyperLikli_terms (s : HyperState ℝ P) :
    s.hyperLikli = ((layout s).map fun slot => slotTerm s slot ((readSlot s slot).getD 0)).sum := by
  have hk := kern_terms s
  unfold layout
  rw [List.map_append, List.sum_append]
  have hp : (((if s.hasPref ∧ s.pref.optimize then [Slot.prefSigma] else []) ++
        (if s.hasOrd then [Slot.ordSigma, Slot.ordB] else []) ++
        (if s.hasAbs ∧ s.abs.optimize then
          (if s.abs.vOnly then [Slot.absV] else [Slot.absSigma, Slot.absV]) else [])).map
          fun slot => slotTerm s slot ((readSlot s slot).getD 0)).sum = s.probitLikli := by
    unfold HyperState.probitLikli PrefHyper.paramLikli AbsHyper.paramLikli OrdHyper.paramLikli
    cases s.hasPref <;> cases s.pref.optimize <;> cases s.hasOrd <;> cases s.hasAbs <;>
      cases s.abs.optimize <;> cases s.abs.vOnly <;>
      simp [slotTerm, readSlot, absSigmaPrior, add_assoc]
  rw [hp]
  unfold HyperState.hyperLikli
  cases h : s.onlyProbit
  · simp only [Bool.false_eq_true, if_false]
    rw [← hk, add_comm]; rfl
  · simp

theorem gradHyperLikli_terms (s : HyperState ℝ P) (ho : s.hasOrd = false) :
    s.gradHyperLikli = (layout s).map fun slot => slotGrad s slot ((readSlot s slot).getD 0) := by
  have hk := kern_grads s
  unfold layout
  rw [List.map_append]
  have hp : ((if s.hasPref ∧ s.pref.optimize then [Slot.prefSigma] else []) ++
        (if s.hasOrd then [Slot.ordSigma, Slot.ordB] else []) ++
        (if s.hasAbs ∧ s.abs.optimize then
          (if s.abs.vOnly then [Slot.absV] else [Slot.absSigma, Slot.absV]) else [])).map
          (fun slot => slotGrad s slot ((readSlot s slot).getD 0)) = s.gradProbitLikli := by
    unfold HyperState.gradProbitLikli PrefHyper.gradParamLikli AbsHyper.gradParamLikli
      OrdHyper.gradParamLikli
    rw [ho]
    cases s.hasPref <;> cases s.pref.optimize <;> cases s.hasAbs <;>
      cases s.abs.optimize <;> cases hv : s.abs.vOnly <;>
      simp [slotGrad, readSlot, absSigmaPrior, absVPrior, hv]
  rw [hp]
  unfold HyperState.gradHyperLikli
  cases h : s.onlyProbit
  · simp only [Bool.false_eq_true, if_false]
    rw [← hk]; rfl
  · simp

theorem logPdf_gamma {x : ℝ} {q : ℝ × ℝ} (hx : 1 / 1000000 < x) (hk : 0 < q.1) (hθ : 0 < q.2) :
    logPdfGamma x q.1 q.2 = ((logGammaDensity q x : ℝ) : EReal) := by
  have h0 : 0 < x := lt_trans (by norm_num) hx
  rw [C15_log_pdf_is_log x q.1 q.2 (by norm_num at hx ⊢; exact hx.le) hk hθ]
  congr 2
  unfold pdfGamma ProbabilityTheory.gammaPDFReal
  rw [if_pos h0.le, Real.div_rpow zero_le_one hθ.le, Real.one_rpow]
  have : -x / q.2 = -(1 / q.2 * x) := by ring
  rw [this]
  congr 2
  field_simp

theorem priorOf_pos (s : HyperState ℝ P) {slot : Slot} {q : ℝ × ℝ} (h : priorOf s slot = some q) :
    0 < q.1 ∧ 0 < q.2 := by
  have hd : ∀ {x : ℝ × ℝ}, some x = some q → 0 < x.1 → 0 < x.2 → 0 < q.1 ∧ 0 < q.2 := by
    rintro x hx h1 h2; cases hx; exact ⟨h1, h2⟩
  cases slot with
  | prefSigma => exact hd h (by norm_num) (by norm_num)
  | ordSigma => simp [priorOf] at h
  | ordB => simp [priorOf] at h
  | absSigma => exact hd h (by norm_num) (by norm_num)
  | absV => exact hd h (by norm_num) (by norm_num)
  | kern i j =>
    unfold priorOf at h
    obtain ⟨k, -, hk⟩ := Option.bind_eq_some_iff.1 h
    cases k <;> rcases j with _ | _ | _ | j <;> simp at hk <;> subst hk <;> norm_num

/-- Specification value of the contribution. -/
def slotReal (s : HyperState ℝ P) (slot : Slot) (x : ℝ) : ℝ := (slotTerm s slot x).toReal

theorem slotTerm_inRange (s : HyperState ℝ P) (slot : Slot) (x : ℝ) (h : slot.inRange x) :
    slotTerm s slot x = ((slotReal s slot x : ℝ) : EReal) := by
  unfold slotReal
  cases slot with
  | prefSigma => simp only [Slot.inRange] at h; simp [slotTerm, not_le.2 h]
  | ordSigma => simp [slotTerm]
  | ordB => simp [slotTerm]
  | absSigma =>
    simp only [Slot.inRange] at h
    have := logPdf_gamma (q := (1, 1)) h one_pos one_pos
    simp only at this
    simp [slotTerm, this]
  | absV => simp only [Slot.inRange] at h; simp [slotTerm, not_lt.2 h.le]
  | kern i j =>
    simp only [Slot.inRange] at h
    simp only [slotTerm]
    cases hq : priorOf s (.kern i j) with
    | none => simp
    | some q =>
      obtain ⟨h1, h2⟩ := priorOf_pos s hq
      simp [logPdf_gamma h h1 h2]

theorem sum_coe (l : List ℝ) : (l.map Real.toEReal).sum = ((l.sum : ℝ) : EReal) := by
  induction l with
  | nil => simp
  | cons a l ih => simp [ih]

theorem slotReal_deriv (s : HyperState ℝ P) (slot : Slot) (x : ℝ) (h : slot.inRange x)
    (hv : slot = .absV → s.abs.vOnly = true) :
    HasDerivAt (slotReal s slot) (slotGrad s slot x) x := by
  cases slot with
  | prefSigma =>
    simp only [Slot.inRange] at h
    refine (hasDerivAt_const x (0 : ℝ)).congr_of_eventuallyEq ?_
    filter_upwards [lt_mem_nhds h] with t ht
    simp [slotReal, slotTerm, not_le.2 ht]
  | ordSigma => exact hasDerivAt_const x _
  | ordB => exact hasDerivAt_const x _
  | absSigma => exact C15_derivative x 1 1 (by norm_num [Slot.inRange] at h ⊢; exact h) one_pos one_pos
  | absV =>
    simp only [Slot.inRange] at h
    simp only [slotGrad, hv rfl, if_true]
    refine (hasDerivAt_const x (0 : ℝ)).congr_of_eventuallyEq ?_
    filter_upwards [lt_mem_nhds h] with t ht
    simp [slotReal, slotTerm, not_lt.2 ht.le]
  | kern i j =>
    simp only [Slot.inRange] at h
    cases hq : priorOf s (.kern i j) with
    | none =>
      simp only [slotGrad, hq]
      refine (hasDerivAt_const x (0 : ℝ)).congr_of_eventuallyEq (Eventually.of_forall fun t => ?_)
      simp [slotReal, slotTerm, hq]
    | some q =>
      obtain ⟨h1, h2⟩ := priorOf_pos s hq
      have := C15_derivative x q.1 q.2 (by norm_num at h ⊢; exact h) h1 h2
      simp only [slotGrad, hq]
      refine this.congr_of_eventuallyEq (Eventually.of_forall fun t => ?_)
      simp [slotReal, slotTerm, hq]

theorem inRange_eventually (slot : Slot) (x : ℝ) (h : slot.inRange x) : ∀ᶠ t in 𝓝 x, slot.inRange t := by
  cases slot <;> simp only [Slot.inRange] at h ⊢
  · exact lt_mem_nhds h
  · exact Eventually.of_forall fun _ => trivial
  · exact Eventually.of_forall fun _ => trivial
  · exact lt_mem_nhds h
  · exact lt_mem_nhds h
  · exact lt_mem_nhds h

theorem deriv_zip {α : Type} (f : α → ℝ → ℝ) (L : List α) (h : List ℝ) (j : Nat) (a : α) (x d : ℝ)
    (hL : L[j]? = some a) (hh : h[j]? = some x) (hd : HasDerivAt (f a) d x) :
    HasDerivAt (fun u => (List.zipWith f L (h.set j u)).sum) d x := by
  induction L generalizing h j with
  | nil => simp at hL
  | cons b L ih =>
    cases h with
    | nil => simp at hh
    | cons y h =>
      cases j with
      | zero =>
        simp only [List.getElem?_cons_zero, Option.some.injEq] at hL hh
        subst hL
        simp only [List.set_cons_zero, List.zipWith_cons_cons, List.sum_cons]
        exact hd.add_const _
      | succ j =>
        simp only [List.getElem?_cons_succ] at hL hh
        simp only [List.set_cons_succ, List.zipWith_cons_cons, List.sum_cons]
        exact (ih h j hL hh).const_add _

theorem forall₂_get {α β : Type} {R : α → β → Prop} {l : List α} {l' : List β}
    (h : List.Forall₂ R l l') (i : Nat) :
    (∃ a b, l[i]? = some a ∧ l'[i]? = some b ∧ R a b) ∨ (l[i]? = none ∧ l'[i]? = none) := by
  induction h generalizing i with
  | nil => right; simp
  | cons h _ ih =>
    cases i with
    | zero => left; exact ⟨_, _, rfl, rfl, h⟩
    | succ i => simpa using ih i

theorem priorOf_congr {s s' : HyperState ℝ P} (h : SameTree s.kern s'.kern) (slot : Slot) :
    priorOf s' slot = priorOf s slot := by
  cases slot <;> simp only [priorOf]
  rename_i i j
  rcases forall₂_get (sameTree_leaves h) i with ⟨a, b, ha, hb, hab⟩ | ⟨ha, hb⟩
  · rw [ha, hb]
    cases a <;> cases b <;> simp_all [SameKind]
  · rw [ha, hb]

theorem slotTerm_congr {s s' : HyperState ℝ P} (h : SameTree s.kern s'.kern) (slot : Slot) (x : ℝ) :
    slotTerm s' slot x = slotTerm s slot x := by
  cases slot <;> simp only [slotTerm]
  rw [priorOf_congr h]

theorem layout_no_ordB (s : HyperState ℝ P) (ho : s.hasOrd = false) : Slot.ordB ∉ layout s := by
  unfold layout
  rw [ho]
  cases s.hasPref <;> cases s.pref.optimize <;> cases s.hasAbs <;> cases s.abs.optimize <;>
    cases s.abs.vOnly <;> cases s.onlyProbit <;> simp

/-- The prior after `set_hyper(x)` as a function of `x`. -/
theorem set_hyperLikli (s : HyperState ℝ P) (ho : s.hasOrd = false) (x : List ℝ)
    (hlen : x.length = (layout s).length) :
    (s.setHyper x).map HyperState.hyperLikli = .ok (List.zipWith (slotTerm s) (layout s) x).sum := by
  obtain ⟨s', hs, hl, hr, -, ht, -⟩ := C23_set_then_read s x hlen (by simp [ho])
  rw [hs]
  simp only [Except.map]
  rw [hyperLikli_terms, hl]
  congr 2
  apply List.ext_getElem? 
  intro i
  rw [List.getElem?_map, List.getElem?_zipWith]
  rcases hi : (layout s)[i]? with _ | slot
  · rfl
  · have hlt : i < x.length := hlen ▸ (List.getElem?_eq_some_iff.1 hi).1
    have hx : x[i]? = some x[i] := List.getElem?_eq_getElem hlt
    rw [hx]
    have hne : slot ≠ .ordB := by
      rintro rfl
      exact layout_no_ordB s ho (List.mem_of_getElem? hi)
    have := hr i slot _ hi hx
    simp only [Option.map_some, this, Option.getD_some]
    rw [slotTerm_congr ht]
    simp [echo, hne]

end

end Lop
