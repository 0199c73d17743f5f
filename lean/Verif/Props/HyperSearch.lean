import Verif.Proofs.HyperSearch
import Mathlib.Tactic.IntervalCases
import Mathlib.Analysis.Complex.ExponentialBounds

/-! # C65: priors of the hyper-parameters and the hyper-parameter search -/

namespace Lop.Props

open Lop Spec Filter Topology

variable {P : Type}

noncomputable section

theorem layout_slot_prior (s : HyperState ℝ P) {slot : Slot} (h : slot ∈ layout s) :
    ∀ i j, slot = .kern i j → ∃ q x, priorOf s slot = some q ∧ readSlot s slot = some x := by
  rintro i j rfl
  have hk : Slot.kern i j ∈ kernSlots s.kern := by
    unfold layout at h
    simp only [List.mem_append] at h
    rcases h with ((h | h) | h) | h
    · split at h <;> simp at h
    · split at h <;> simp at h
    · split at h
      · split at h <;> simp at h
      · simp at h
    · split at h
      · simp at h
      · exact h
  unfold kernSlots at hk
  obtain ⟨⟨k, i'⟩, h1, h2⟩ := List.mem_flatMap.1 hk
  obtain ⟨j', hj, he⟩ := List.mem_map.1 h2
  cases he
  have h3 : (leaves s.kern)[i]? = some k := by simpa using List.mem_zipIdx_iff_getElem?.1 h1
  simp only [priorOf, readSlot, h3, Option.bind_some]
  rw [List.mem_range] at hj
  cases k <;> simp only [arity] at hj <;> interval_cases j <;> exact ⟨_, _, rfl, rfl⟩

open Classical in
/-- C65 (value), partial: while every tuned parameter is in its range (noise and precision positive,
the others above the clipping threshold), `hyper_liklihood` is the sum of the log densities, under the
gamma distributions that `randomize_hyper` samples from, of the kernel parameters and of the rating
spread.
Missing for the full claim: the other parameters, which contribute nothing (`C65_noise_prior_false`). -/
theorem C65_value_partial (s : HyperState ℝ P)
    (hr : ∀ slot ∈ layout s, ∀ x, readSlot s slot = some x → slot.inRange x) :
    s.hyperLikli = (((layout s).map fun slot =>
      if slot.hasGammaPrior then slotLogPrior s slot else 0).sum : ℝ) := by
  rw [hyperLikli_terms, ← sum_coe, List.map_map]
  congr 1
  apply List.map_congr_left
  intro slot hs
  simp only [Function.comp]
  have hr' := hr slot hs
  cases slot with
  | prefSigma =>
    have := hr' _ rfl
    simp only [Slot.inRange] at this
    simp [slotTerm, readSlot, Slot.hasGammaPrior, not_le.2 this]
  | ordSigma => simp [slotTerm, Slot.hasGammaPrior]
  | ordB => simp [slotTerm, Slot.hasGammaPrior]
  | absSigma =>
    have := hr' _ rfl
    simp only [Slot.inRange] at this
    have h := logPdf_gamma (q := (1, 1)) this one_pos one_pos
    simp only at h
    simp [slotTerm, readSlot, Slot.hasGammaPrior, h, slotLogPrior, priorOf]
  | absV =>
    have := hr' _ rfl
    simp only [Slot.inRange] at this
    simp [slotTerm, readSlot, Slot.hasGammaPrior, not_lt.2 this.le]
  | kern i j =>
    obtain ⟨q, x, hq, hx⟩ := layout_slot_prior s hs i j rfl
    obtain ⟨h1, h2⟩ := priorOf_pos s hq
    have := hr' _ hx
    simp only [Slot.inRange] at this
    simp [slotTerm, Slot.hasGammaPrior, slotLogPrior, hq, hx, logPdf_gamma this h1 h2]

/-- A model with pairs only and a single RBF kernel. -/
def pairsOnly (σ : ℝ) : HyperState ℝ Unit :=
  { pref := ⟨σ, true⟩, ord := ⟨1, 2, [.neg, .fin 0, .pos]⟩, abs := ⟨1, 80, true, true⟩,
    hasPref := true, hasOrd := false, hasAbs := false, kern := .leaf (.rbf 1 (1 / 2) 0) }

/-- Non-vacuous: a product kernel with parameters in range. -/
example : ∃ s : HyperState ℝ Unit, s.onlyProbit = false ∧ (layout s).length = 6 ∧
    ∀ slot ∈ layout s, ∀ x, readSlot s slot = some x → slot.inRange x := by
  refine ⟨{ pairsOnly 1 with onlyProbit := false, kern := .dual .mul (.leaf (.rbf 1 2 0)) (.leaf (.linear 1 2 3)) }, rfl, rfl, ?_⟩
  simp [layout, pairsOnly, leaves, arity, List.range_succ, readSlot, Slot.inRange, field]
  norm_num

/-- C65 (value) is false for the noise of the preference probit: with default settings its prior is not
the gamma distribution with shape 2 and scale 0.1 that `randomize_hyper` samples (the code returns before
evaluating it); the contribution is 0. -/
theorem C65_noise_prior_false : ¬ ∀ s : HyperState ℝ Unit,
    (∀ slot ∈ layout s, ∀ x, readSlot s slot = some x → slot.inRange x) →
    s.hyperLikli = (((layout s).map (slotLogPrior s)).sum : ℝ) := by
  intro h
  have h1 := h (pairsOnly 1) (by simp [layout, pairsOnly, readSlot, Slot.inRange])
  have h2 : (pairsOnly 1).hyperLikli = 0 := by
    simp [HyperState.hyperLikli, HyperState.probitLikli, pairsOnly, PrefHyper.paramLikli]
  rw [h2] at h1
  have h3 : (((layout (pairsOnly 1)).map (slotLogPrior (pairsOnly 1))).sum : ℝ) =
      Real.log 100 - 10 := by
    have := logPdf_gamma (x := 1) (q := (2, 1 / 10)) (by norm_num) (by norm_num) (by norm_num)
    simp only [logPdfGamma] at this
    rw [if_neg (by norm_num)] at this
    have e := EReal.coe_eq_coe_iff.1 this
    simp only [layout, pairsOnly, slotLogPrior, priorOf, readSlot]
    simp only [Bool.false_eq_true, if_false, if_true, and_true, List.append_nil, List.map_cons,
      List.map_nil, List.sum_cons, List.sum_nil, add_zero, false_and]
    change logGammaDensity (2, 1 / 10) 1 = _
    rw [← e, if_neg (by norm_num)]
    have g2 : Real.Gamma 2 = 1 := by
      have := Real.Gamma_nat_eq_factorial 1
      rw [← one_add_one_eq_two]
      simpa using this
    rw [g2]
    norm_num
  rw [h3] at h1
  have h4 : Real.log 100 = 10 := by
    have := EReal.coe_eq_coe_iff.1 (h1 : ((0 : ℝ) : EReal) = _)
    linarith
  have h5 : Real.log 100 < 10 := by
    rw [Real.log_lt_iff_lt_exp (by norm_num)]
    have : Real.exp 10 = Real.exp 1 ^ 10 := by rw [← Real.exp_nat_mul]; norm_num
    rw [this]
    have := Real.exp_one_gt_d9
    calc (100 : ℝ) < 2 ^ 10 := by norm_num
      _ ≤ Real.exp 1 ^ 10 := by gcongr; linarith
  linarith

/-- C65 (length): `grad_hyper_liklihood` has one entry per hyper-parameter, except that the two ordinal
parameters have none. -/
theorem C65_length (s : HyperState ℝ P) :
    s.gradHyperLikli.length + (if s.hasOrd then 2 else 0) = (layout s).length := by
  cases ho : s.hasOrd
  · rw [gradHyperLikli_terms s ho]; simp
  · have h := gradHyperLikli_terms { s with hasOrd := false } rfl
    have h1 : s.gradHyperLikli = ({ s with hasOrd := false } : HyperState ℝ P).gradHyperLikli := by
      simp [HyperState.gradHyperLikli, HyperState.gradProbitLikli, ho, OrdHyper.gradParamLikli]
    rw [h1, h]
    simp [layout, ho]
    omega

/-- C65 (length) – the gradient covers all hyper-parameters – is false as soon as there are ordinal
ratings. -/
theorem C65_length_false (s : HyperState ℝ P) (ho : s.hasOrd = true) :
    s.gradHyperLikli.length ≠ (layout s).length := by
  have := C65_length s
  rw [if_pos ho] at this
  omega

theorem zip_set_sum {α : Type} (f : α → ℝ → ℝ) (L : List α) (h : List ℝ) (j : Nat) (a : α) (x : ℝ)
    (hL : L[j]? = some a) (hh : h[j]? = some x) :
    ∃ c, ∀ u, (List.zipWith f L (h.set j u)).sum = c + f a u := by
  induction L generalizing h j with
  | nil => simp at hL
  | cons b L ih =>
    cases h with
    | nil => simp at hh
    | cons y h =>
      cases j with
      | zero =>
        simp only [List.getElem?_cons_zero, Option.some.injEq] at hL hh
        subst hL
        exact ⟨(List.zipWith f L h).sum, fun u => by simp [add_comm]⟩
      | succ j =>
        simp only [List.getElem?_cons_succ] at hL hh
        obtain ⟨c, hc⟩ := ih h j hL hh
        exact ⟨f b y + c, fun u => by simp [hc, add_assoc]⟩

theorem zipWith_coe {α : Type} (F : α → ℝ → EReal) (f : α → ℝ → ℝ) (L : List α) (x : List ℝ)
    (h : ∀ (i : Nat) a b, L[i]? = some a → x[i]? = some b → F a b = (f a b : ℝ)) :
    (List.zipWith F L x).sum = (((List.zipWith f L x).sum : ℝ) : EReal) := by
  induction L generalizing x with
  | nil => simp
  | cons a L ih =>
    cases x with
    | nil => simp
    | cons b x =>
      have h0 := h 0 a b rfl rfl
      have := ih x fun i a b h1 h2 => h (i + 1) a b (by simpa using h1) (by simpa using h2)
      simp [h0, this]

theorem derivOfLog_iff (s : HyperState ℝ P) (ho : s.hasOrd = false) (h : List ℝ) (hh : s.getHyper = .ok h)
    (hr : ∀ slot ∈ layout s, ∀ x, readSlot s slot = some x → slot.inRange x)
    (j : Nat) (slot : Slot) (x d : ℝ) (hj : (layout s)[j]? = some slot) (hx : h[j]? = some x) :
    DerivOfLog (fun u => (s.setHyper (h.set j u)).map HyperState.hyperLikli) d x ↔
      HasDerivAt (slotReal s slot) d x := by
  obtain ⟨h', e, hl⟩ := C23_layout s (by simp [ho])
  rw [hh] at e
  cases e
  have hlen : h.length = (layout s).length := by simpa using congrArg List.length hl
  have hval : ∀ (i : Nat) sl y, (layout s)[i]? = some sl → h[i]? = some y → readSlot s sl = some y := by
    intro i sl y h1 h2
    have := congrArg (fun l => l[i]?) hl
    simp only [List.getElem?_map, h1, h2, Option.map_some, Option.some.injEq] at this
    exact this.symm
  obtain ⟨c, hc⟩ := zip_set_sum (slotReal s) (layout s) h j slot x hj hx
  have hev : ∀ᶠ u in 𝓝 x, (s.setHyper (h.set j u)).map HyperState.hyperLikli =
      .ok (((c + slotReal s slot u : ℝ)) : EReal) := by
    filter_upwards [inRange_eventually slot x (hr slot (List.mem_of_getElem? hj) x
      (hval j slot x hj hx))] with u hu
    rw [set_hyperLikli s ho _ (by simpa using hlen), ← hc]
    congr 1
    apply zipWith_coe
    intro i a b h1 h2
    apply slotTerm_inRange
    by_cases hij : j = i
    · subst hij
      rw [h1] at hj
      cases hj
      have hjl : j < h.length := (List.getElem?_eq_some_iff.1 hx).1
      rw [List.getElem?_set_self hjl] at h2
      cases h2
      exact hu
    · rw [List.getElem?_set_ne hij] at h2
      exact hr a (List.mem_of_getElem? h1) b (hval i a b h1 h2)
  constructor
  · rintro ⟨V, hV, hd⟩
    have : (fun u => c + slotReal s slot u) =ᶠ[𝓝 x] V := by
      filter_upwards [hev, hV] with u h1 h2
      rw [h1] at h2
      exact EReal.coe_eq_coe_iff.1 (Except.ok.inj h2)
    have h2 := (hd.congr_of_eventuallyEq this).sub_const c
    simpa using h2
  · intro hd
    exact ⟨_, hev, hd.const_add c⟩

/-- C65 (gradient), partial: entry by entry `grad_hyper_liklihood` is the partial derivative of
`hyper_liklihood` with respect to the hyper-parameter that `get_hyper` lists at this position, for
parameters in their range.
Missing for the full claim: ordinal ratings (`C65_length_false`), the precision when spread and
precision of the ratings are tuned together (`C65_precision_false`). -/
theorem C65_gradient_partial (s : HyperState ℝ P) (ho : s.hasOrd = false) (h : List ℝ)
    (hh : s.getHyper = .ok h)
    (hr : ∀ slot ∈ layout s, ∀ x, readSlot s slot = some x → slot.inRange x)
    (j : Nat) (x : ℝ) (hx : h[j]? = some x)
    (hv : (layout s)[j]? = some .absV → s.abs.vOnly = true) :
    ∃ d, s.gradHyperLikli[j]? = some d ∧
      DerivOfLog (fun u => (s.setHyper (h.set j u)).map HyperState.hyperLikli) d x := by
  obtain ⟨h', e, hl⟩ := C23_layout s (by simp [ho])
  rw [hh] at e
  cases e
  have hlen : h.length = (layout s).length := by simpa using congrArg List.length hl
  have hjl : j < (layout s).length := hlen ▸ (List.getElem?_eq_some_iff.1 hx).1
  obtain ⟨slot, hj⟩ : ∃ slot, (layout s)[j]? = some slot := ⟨_, List.getElem?_eq_getElem hjl⟩
  have hval : readSlot s slot = some x := by
    have := congrArg (fun l => l[j]?) hl
    simp only [List.getElem?_map, hj, hx, Option.map_some, Option.some.injEq] at this
    exact this.symm
  refine ⟨slotGrad s slot x, ?_, ?_⟩
  · rw [gradHyperLikli_terms s ho, List.getElem?_map, hj]
    simp [hval]
  · rw [derivOfLog_iff s ho h hh hr j slot x _ hj hx]
    exact slotReal_deriv s slot x (hr slot (List.mem_of_getElem? hj) x hval)
      fun e => hv (by rw [hj, e])

/-- Non-vacuous: pairs and ratings, kernel tuned. -/
example : ∃ (s : HyperState ℝ Unit) (h : List ℝ), s.hasOrd = false ∧ s.hasAbs = true ∧
    s.getHyper = .ok h ∧ h.length = 4 ∧ s.abs.vOnly = true ∧
    ∀ slot ∈ layout s, ∀ x, readSlot s slot = some x → slot.inRange x := by
  refine ⟨{ pairsOnly 1 with onlyProbit := false, hasAbs := true }, [1, 80, 1, 1 / 2], rfl, rfl, rfl, rfl, rfl, ?_⟩
  simp [layout, pairsOnly, leaves, arity, List.range_succ, readSlot, Slot.inRange, field]
  norm_num

/-- C65 (gradient) is false for the precision of the ratings when spread and precision are tuned
together: `hyper_liklihood` does not depend on the precision (as long as it is positive) but the
gradient entry is `1/v - 1/25`, so it is right exactly at `v = 25`. -/
theorem C65_precision_false (s : HyperState ℝ P) (ho : s.hasOrd = false) (ha : s.hasAbs = true)
    (hopt : s.abs.optimize = true) (hv : s.abs.vOnly = false) (h : List ℝ) (hh : s.getHyper = .ok h)
    (hr : ∀ slot ∈ layout s, ∀ x, readSlot s slot = some x → slot.inRange x)
    (h6 : 1 / 1000000 < s.abs.v) :
    ∃ (j : Nat) (d : ℝ), (layout s)[j]? = some .absV ∧ s.gradHyperLikli[j]? = some d ∧
      (DerivOfLog (fun u => (s.setHyper (h.set j u)).map HyperState.hyperLikli) d s.abs.v ↔
        s.abs.v = 25) := by
  obtain ⟨h', e, hl⟩ := C23_layout s (by simp [ho])
  rw [hh] at e
  cases e
  have hmem : Slot.absV ∈ layout s := by simp [layout, ha, hopt, hv]
  obtain ⟨j, hj⟩ := List.getElem?_of_mem hmem
  have hx : h[j]? = some s.abs.v := by
    have := congrArg (fun l => l[j]?) hl
    simp only [List.getElem?_map, hj, Option.map_some] at this
    rcases hq : h[j]? with _ | y
    · rw [hq] at this; simp at this
    · rw [hq] at this
      simpa [readSlot] using this
  refine ⟨j, dLogPdfGamma s.abs.v 2 25, hj, ?_, ?_⟩
  · rw [gradHyperLikli_terms s ho, List.getElem?_map, hj]
    simp [readSlot, slotGrad, hv]
  · rw [derivOfLog_iff s ho h hh hr j .absV _ _ hj hx]
    have hpos : 0 < s.abs.v := lt_trans (by norm_num) h6
    have h0 : HasDerivAt (slotReal s .absV) 0 s.abs.v := by
      refine (hasDerivAt_const _ (0 : ℝ)).congr_of_eventuallyEq ?_
      filter_upwards [lt_mem_nhds hpos] with t ht
      simp [slotReal, slotTerm, not_lt.2 ht.le]
    have hd : dLogPdfGamma s.abs.v 2 25 = 1 / s.abs.v - 1 / 25 := by
      unfold dLogPdfGamma
      simp only
      rw [if_neg (by norm_num at h6 ⊢; exact h6.le)]
      norm_num
    constructor
    · intro h1
      have := h1.unique h0
      rw [hd] at this
      field_simp at this
      linarith
    · intro h1
      rw [hd, h1]
      simpa [h1] using h0

/-- Non-vacuous: ratings with both parameters tuned. -/
example : ∃ (s : HyperState ℝ Unit) (h : List ℝ), s.hasOrd = false ∧ s.hasAbs = true ∧
    s.abs.optimize = true ∧ s.abs.vOnly = false ∧ s.getHyper = .ok h ∧ 1 / 1000000 < s.abs.v ∧
    ∀ slot ∈ layout s, ∀ x, readSlot s slot = some x → slot.inRange x := by
  refine ⟨{ pairsOnly 1 with hasAbs := true, abs := ⟨1, 80, true, false⟩ }, [1, 1, 80], rfl, rfl, rfl, rfl, rfl,
    by norm_num, ?_⟩
  simp [layout, pairsOnly, readSlot, Slot.inRange]
  norm_num


/-! ### The search step -/

theorem pref_set_flags {p p' : PrefHyper ℝ} {x : List ℝ} (h : p.setHyper x = .ok p') :
    p'.optimize = p.optimize := by
  unfold PrefHyper.setHyper at h
  split at h
  · split at h <;> cases h
    rfl
  · cases h; rfl

theorem abs_set_flags {p p' : AbsHyper ℝ} {x : List ℝ} (h : p.setHyper x = .ok p') :
    p'.optimize = p.optimize ∧ p'.vOnly = p.vOnly := by
  unfold AbsHyper.setHyper at h
  split at h
  · split at h
    · split at h <;> cases h
      exact ⟨rfl, rfl⟩
    · split at h <;> cases h
      exact ⟨rfl, rfl⟩
  · cases h; exact ⟨rfl, rfl⟩

theorem setHyper_flags (s s' : HyperState ℝ P) (x : List ℝ) (h : s.setHyper x = .ok s') :
    s'.hasPref = s.hasPref ∧ s'.hasOrd = s.hasOrd ∧ s'.hasAbs = s.hasAbs ∧
      s'.onlyProbit = s.onlyProbit ∧ s'.pref.optimize = s.pref.optimize ∧
      s'.abs.optimize = s.abs.optimize ∧ s'.abs.vOnly = s.abs.vOnly := by
  unfold HyperState.setHyper at h
  cases h1 : s.getProbitHyper with
  | error e => rw [h1] at h; cases h
  | ok hp =>
    rw [h1] at h
    simp only [Bind.bind, Except.bind] at h
    cases h2 : s.setProbitHyper (x.take hp.length) with
    | error e => rw [h2] at h; cases h
    | ok s1 =>
      rw [h2] at h
      have h3 : s'.hasPref = s1.hasPref ∧ s'.hasOrd = s1.hasOrd ∧ s'.hasAbs = s1.hasAbs ∧
          s'.onlyProbit = s1.onlyProbit ∧ s'.pref = s1.pref ∧ s'.abs = s1.abs := by
        simp only at h
        split at h
        · cases h; exact ⟨rfl, rfl, rfl, rfl, rfl, rfl⟩
        · cases h4 : s1.kern.setParam (x.drop hp.length) with
          | error e => rw [h4] at h; cases h
          | ok k => rw [h4] at h; cases h; exact ⟨rfl, rfl, rfl, rfl, rfl, rfl⟩
      obtain ⟨e1, e2, e3, e4, e5, e6⟩ := h3
      rw [e1, e2, e3, e4, e5, e6]
      unfold HyperState.setProbitHyper at h2
      cases h5 : s.setPrefPart (x.take hp.length) 0 with
      | error e => rw [h5] at h2; cases h2
      | ok p =>
        rw [h5] at h2
        simp only [Bind.bind, Except.bind] at h2
        cases h6 : s.setOrdPart (x.take hp.length) p.2 with
        | error e => rw [h6] at h2; cases h2
        | ok o =>
          rw [h6] at h2
          simp only at h2
          cases h7 : s.setAbsPart (x.take hp.length) o.2 with
          | error e => rw [h7] at h2; cases h2
          | ok a =>
            rw [h7] at h2
            cases h2
            refine ⟨rfl, rfl, rfl, rfl, ?_, ?_⟩
            · unfold HyperState.setPrefPart at h5
              split at h5
              · simp only [Bind.bind, Except.bind] at h5
                split at h5
                · cases h5
                · rename_i hq
                  cases h5
                  exact pref_set_flags hq
              · cases h5; rfl
            · unfold HyperState.setAbsPart at h7
              split at h7
              · simp only [Bind.bind, Except.bind] at h7
                split at h7
                · cases h7
                · rename_i hq
                  cases h7
                  exact abs_set_flags hq
              · cases h7; exact ⟨rfl, rfl⟩

theorem pushGrad_take (avg : Nat) (prev : List (List ℝ)) (g : List ℝ) (h : prev.length ≤ avg) :
    pushGrad avg prev g = (g :: prev).take avg := by
  unfold pushGrad
  split
  · rename_i h1
    rw [List.length_cons] at h1
    have : avg = prev.length := by omega
    rw [List.dropLast_eq_take]
    simp [this]
  · rename_i h1
    rw [List.take_of_length_le (by omega)]

theorem sum_range_fin (d : Nat) (f : Nat → ℝ) : ((List.range d).map f).sum = ∑ j : Fin d, f j := by
  rw [← Finset.sum_range, ← List.sum_toFinset _ List.nodup_range]
  congr 1
  ext; simp

theorem normTwo_mean (d : Nat) (w : List (List ℝ)) : normTwo (meanGrad d w) = averageLength d w := by
  unfold normTwo meanGrad averageLength
  rw [EuclideanSpace.norm_eq, List.map_map, sum_range_fin]
  congr 1
  apply Finset.sum_congr rfl
  intro j _
  simp only [Function.comp, Real.norm_eq_abs, sq_abs]
  congr 2
  conv_lhs => rw [← List.ofFn_get w, List.map_ofFn, List.sum_ofFn]
  rfl

theorem searchStep_eq (s : HyperState ℝ P) (ho : s.hasOrd = false) (x0 g : List ℝ)
    (hx0 : s.getHyper = .ok x0) (likGrad : HyperState ℝ P → Except PyErr (List ℝ))
    (hg : likGrad s = .ok g) (hlen : g.length = x0.length)
    (rng : Nat → ℝ → ℝ → ℝ) (avg : Nat) (tol : ℝ) (prev : List (List ℝ)) :
    ∃ (s1 : HyperState ℝ P) (G : List ℝ), G = List.zipWith (fun a b => -a - b) g s.gradHyperLikli ∧
      G.length = x0.length ∧
      s.setHyper (List.zipWith (fun a b => a - b * 0.01) x0 G) = .ok s1 ∧
      s.searchStep likGrad rng avg tol prev = (s1.rollback rng).map fun s2 =>
        ⟨s2, pushGrad avg prev G, windowConverged avg tol G.length (pushGrad avg prev G)⟩ := by
  obtain ⟨h', e, hl⟩ := C23_layout s (by simp [ho])
  rw [hx0] at e
  cases e
  have hL : x0.length = (layout s).length := by simpa using congrArg List.length hl
  have hp : s.gradHyperLikli.length = x0.length := by
    have := C65_length s
    rw [ho] at this
    simp only [Bool.false_eq_true, if_false, add_zero] at this
    omega
  have hGl : (List.zipWith (fun a b => -a - b) g s.gradHyperLikli).length = x0.length := by
    rw [List.length_zipWith]; omega
  obtain ⟨s1, hs1, -⟩ := C23_set_then_read s
    (List.zipWith (fun a b => a - b * 0.01) x0 (List.zipWith (fun a b => -a - b) g s.gradHyperLikli))
    (by rw [List.length_zipWith, hGl]; omega) (by simp [ho])
  refine ⟨s1, _, rfl, hGl, hs1, ?_⟩
  have hset : s.setHyper x0 = .ok s := C23_read_then_set s x0 hx0 (by simp [ho])
  unfold HyperState.searchStep HyperState.objGrad
  simp only [hx0, hset, hg, Bind.bind, Except.bind]
  rw [broadcast, if_pos (by omega)]
  simp only
  rw [broadcast, if_pos (by omega)]
  simp only [hs1]
  cases s1.rollback rng <;> rfl

/-- C65 (step): one search step adds to every hyper-parameter 0.01 times the sum of the gradient of the
data likelihood and of the prior at its position and changes nothing else; if the prior of the new
parameters is below -130 it draws new random parameters instead; the window afterwards holds the most
recent `hyper_grad_avg` (negated) gradients, newest first, and convergence is reported exactly if there
are `hyper_grad_avg ≥ 1` of them and their average is shorter than the tolerance. -/
theorem C65_step (s : HyperState ℝ P) (ho : s.hasOrd = false) (x0 g : List ℝ)
    (hx0 : s.getHyper = .ok x0) (likGrad : HyperState ℝ P → Except PyErr (List ℝ))
    (hg : likGrad s = .ok g) (hlen : g.length = x0.length)
    (rng : Nat → ℝ → ℝ → ℝ) (avg : Nat) (tol : ℝ) (prev : List (List ℝ)) (hprev : prev.length ≤ avg) :
    ∃ (s1 : HyperState ℝ P) (G : List ℝ),
      (∀ (j : Nat) slot, (layout s)[j]? = some slot → ∃ a b c, x0[j]? = some a ∧ g[j]? = some b ∧
        s.gradHyperLikli[j]? = some c ∧ G[j]? = some (-(b + c)) ∧ G.length = x0.length ∧
        readSlot s1 slot = some (a + 0.01 * (b + c))) ∧
      (∀ slot, slot ∉ layout s → readSlot s1 slot = readSlot s slot) ∧ layout s1 = layout s ∧
      SameTree s.kern s1.kern ∧
      (¬ s1.hyperLikli < ((-130 : ℝ) : EReal) → ∃ r, s.searchStep likGrad rng avg tol prev = .ok r ∧
        r.state = s1) ∧
      (s1.hyperLikli < ((-130 : ℝ) : EReal) →
        (∀ e, s1.randomizeHyper rng = .error e → s.searchStep likGrad rng avg tol prev = .error e) ∧
        ∀ s2, s1.randomizeHyper rng = .ok s2 →
          ∃ r, s.searchStep likGrad rng avg tol prev = .ok r ∧ r.state = s2) ∧
      ∀ r, s.searchStep likGrad rng avg tol prev = .ok r →
        r.window = (G :: prev).take avg ∧
        (r.converged ↔ 1 ≤ avg ∧ avg ≤ prev.length + 1 ∧ averageLength x0.length r.window < tol) := by
  obtain ⟨s1, G, hG, hGl, hs1, hstep⟩ := searchStep_eq s ho x0 g hx0 likGrad hg hlen rng avg tol prev
  obtain ⟨h', e, hl⟩ := C23_layout s (by simp [ho])
  rw [hx0] at e
  cases e
  have hL : x0.length = (layout s).length := by simpa using congrArg List.length hl
  have hp : s.gradHyperLikli.length = x0.length := by
    have := C65_length s
    rw [ho] at this
    simp only [Bool.false_eq_true, if_false, add_zero] at this
    omega
  obtain ⟨s1', hs1', hlay, hread, hother, htree, -⟩ := C23_set_then_read s
    (List.zipWith (fun a b => a - b * 0.01) x0 G)
    (by rw [List.length_zipWith, hGl]; omega) (by simp [ho])
  rw [hs1] at hs1'
  cases hs1'
  refine ⟨s1, G, ?_, hother, hlay, htree, ?_, ?_, ?_⟩
  · intro j slot hj
    have hjl : j < (layout s).length := (List.getElem?_eq_some_iff.1 hj).1
    obtain ⟨a, h1⟩ : ∃ a, x0[j]? = some a := ⟨_, List.getElem?_eq_getElem (by omega)⟩
    obtain ⟨b, h2⟩ : ∃ a, g[j]? = some a := ⟨_, List.getElem?_eq_getElem (by omega)⟩
    obtain ⟨c, h3⟩ : ∃ a, s.gradHyperLikli[j]? = some a := ⟨_, List.getElem?_eq_getElem (by omega)⟩
    have h4 : G[j]? = some (-(b + c)) := by
      rw [hG, List.getElem?_zipWith, h2, h3]
      simp; ring
    refine ⟨_, _, _, h1, h2, h3, h4, hGl, ?_⟩
    have h5 : (List.zipWith (fun a b => a - b * 0.01) x0 G)[j]? =
        some (a + 0.01 * (b + c)) := by
      rw [List.getElem?_zipWith, h1, h4]
      simp; ring
    rw [hread j slot _ hj h5]
    have hne : slot ≠ .ordB := by
      rintro rfl
      exact layout_no_ordB s ho (List.mem_of_getElem? hj)
    simp [echo, hne]
  · intro hn
    rw [hstep, HyperState.rollback, if_neg hn]
    exact ⟨_, rfl, rfl⟩
  · intro hlt
    rw [hstep, HyperState.rollback, if_pos hlt]
    exact ⟨fun e he => by rw [he]; rfl, fun s2 h2 => by rw [h2]; exact ⟨_, rfl, rfl⟩⟩
  · intro r hr
    rw [hstep] at hr
    cases hb : s1.rollback rng with
    | error e => rw [hb] at hr; cases hr
    | ok s2 =>
      rw [hb] at hr
      cases hr
      rw [pushGrad_take avg prev G hprev]
      refine ⟨rfl, ?_⟩
      unfold windowConverged
      rw [normTwo_mean, hGl]
      simp only [List.length_take, List.length_cons]
      constructor
      · rintro ⟨h1, h2, h3⟩; exact ⟨by omega, by omega, h3⟩
      · rintro ⟨h1, h2, h3⟩; exact ⟨by omega, by omega, h3⟩

/-- Non-vacuous: a step of a model with pairs. -/
example : ∃ (s : HyperState ℝ Unit) (x0 g : List ℝ), s.hasOrd = false ∧ s.getHyper = .ok x0 ∧
    g.length = x0.length ∧ 0 < g.length := ⟨pairsOnly 1, [1], [2], rfl, rfl, rfl, by simp⟩

/-- C65 (wrong shapes): a likelihood gradient with the wrong number of entries is rejected with
`ValueError`, unless NumPy can broadcast: a single entry is used for every hyper-parameter, and with a
single hyper-parameter its prior gradient is used for every entry. -/
theorem C65_shape (s : HyperState ℝ P) (ho : s.hasOrd = false) (x0 g : List ℝ) (hx0 : s.getHyper = .ok x0)
    (likGrad : HyperState ℝ P → Except PyErr (List ℝ)) (hg : likGrad s = .ok g) (hlen : g.length ≠ x0.length) :
    (g.length ≠ 1 → x0.length ≠ 1 → s.objGrad likGrad x0 = .error .valueError ∧
      ∀ rng avg tol prev, s.searchStep likGrad rng avg tol prev = .error .valueError) ∧
    (∀ a, g = [a] → s.objGrad likGrad x0 = .ok (s, s.gradHyperLikli.map fun b => -a - b)) ∧
    (∀ b, s.gradHyperLikli = [b] → s.objGrad likGrad x0 = .ok (s, g.map fun a => -a - b)) := by
  obtain ⟨h', e, hl⟩ := C23_layout s (by simp [ho])
  rw [hx0] at e
  cases e
  have hL : x0.length = (layout s).length := by simpa using congrArg List.length hl
  have hp : s.gradHyperLikli.length = x0.length := by
    have := C65_length s
    rw [ho] at this
    simp only [Bool.false_eq_true, if_false, add_zero] at this
    omega
  have hset : s.setHyper x0 = .ok s := C23_read_then_set s x0 hx0 (by simp [ho])
  refine ⟨fun h1 h2 => ?_, fun a ha => ?_, fun b hb => ?_⟩
  · have hobj : s.objGrad likGrad x0 = .error .valueError := by
      unfold HyperState.objGrad
      simp only [hset, hg, Bind.bind, Except.bind]
      rw [broadcast, if_neg (by omega), if_neg (by omega), if_neg h1]
    refine ⟨hobj, fun rng avg tol prev => ?_⟩
    unfold HyperState.searchStep
    simp only [hx0, hobj, Bind.bind, Except.bind]
  · subst ha
    unfold HyperState.objGrad
    simp only [hset, hg, Bind.bind, Except.bind]
    simp only [List.length_singleton] at hlen
    rw [broadcast, if_neg (by simp; omega), if_neg (by omega), if_pos (by simp)]
    rfl
  · rw [hb] at hp
    unfold HyperState.objGrad
    simp only [hset, hg, Bind.bind, Except.bind, hb]
    rw [broadcast, if_neg (by simp at hp ⊢; omega), if_pos (by simp)]
    rfl

/-- Non-vacuous: two entries for one hyper-parameter. -/
example : (pairsOnly 1).hasOrd = false ∧ (pairsOnly 1).getHyper = .ok [1] ∧ [2, 3].length ≠ [(1 : ℝ)].length ∧
    ∃ b, (pairsOnly 1).gradHyperLikli = [b] := ⟨rfl, rfl, by simp, _, rfl⟩

/-- C65 (rollback), partial: when only probit parameters are tuned (default) and of the ratings only the
precision (default), the parameters are thrown away exactly if a tuned noise level is not positive or a
tuned precision is negative.
Missing for the full claim: the converse statement for kernel parameters and a precision of exactly 0
(`C65_zero_accepted_counterexample`). -/
theorem C65_rollback_partial (s : HyperState ℝ P) (hk : s.onlyProbit = true) (hv : s.abs.vOnly = true) :
    s.hyperLikli < ((-130 : ℝ) : EReal) ↔
      (s.hasPref = true ∧ s.pref.optimize = true ∧ s.pref.sigma ≤ 0) ∨
      (s.hasAbs = true ∧ s.abs.optimize = true ∧ s.abs.v < 0) := by
  unfold HyperState.hyperLikli HyperState.probitLikli PrefHyper.paramLikli AbsHyper.paramLikli
    OrdHyper.paramLikli
  rw [hk, hv]
  have h0 : (0 : EReal) = ((0 : ℝ) : EReal) := rfl
  rw [h0]
  by_cases h1 : s.pref.sigma ≤ 0 <;> by_cases h2 : s.abs.v < 0 <;>
    cases s.hasPref <;> cases s.pref.optimize <;> cases s.hasOrd <;> cases s.hasAbs <;>
      cases s.abs.optimize <;>
      simp only [h1, h2, if_true, if_false, Bool.false_eq_true, false_and, true_and, and_false, and_true,
        or_true, or_false, true_or, ite_self, iff_true, iff_false, ← EReal.coe_add, EReal.coe_lt_coe_iff] <;>
      norm_num

/-- C65 (rollback): a negative kernel parameter or a negative rating spread is always thrown away. -/
theorem C65_rollback_negative (s : HyperState ℝ P) (slot : Slot) (x : ℝ) (hs : slot ∈ layout s)
    (hp : slot.hasGammaPrior) (hx : readSlot s slot = some x) (hneg : x < 0) :
    s.hyperLikli < ((-130 : ℝ) : EReal) := by
  have hb : slotTerm s slot ((readSlot s slot).getD 0) = ⊥ := by
    rw [hx]
    cases slot with
    | absSigma => exact C15_negative x 1 1 hneg
    | kern i j =>
      obtain ⟨q, y, hq, -⟩ := layout_slot_prior s hs i j rfl
      simp only [slotTerm, hq]
      exact C15_negative x _ _ hneg
    | _ => exact hp.elim
  rw [hyperLikli_terms]
  have : ∀ l : List EReal, ⊥ ∈ l → l.sum = ⊥ := by
    intro l
    induction l with
    | nil => simp
    | cons a l ih =>
      intro h
      rw [List.mem_cons] at h
      rcases h with h | h
      · rw [← h]; simp
      · rw [List.sum_cons, ih h]; simp
  rw [this _ (List.mem_map.2 ⟨slot, hs, hb⟩)]
  exact EReal.bot_lt_coe _

/-- Non-vacuous: a kernel with a negative length scale. -/
example : ∃ (s : HyperState ℝ Unit) (slot : Slot) (x : ℝ), slot ∈ layout s ∧ slot.hasGammaPrior ∧
    readSlot s slot = some x ∧ x < 0 := by
  refine ⟨{ pairsOnly 1 with onlyProbit := false, kern := .leaf (.rbf 1 (-1) 0) }, .kern 0 1, -1, ?_, trivial, rfl,
    by norm_num⟩
  simp [layout, pairsOnly, leaves, arity]

/-- C65 (rollback) – degenerate parameters are thrown away – is false at zero: a rating precision of 0
(no valid beta distribution) and an RBF length scale of 0 (division by zero in the kernel) are kept. -/
theorem C65_zero_accepted_counterexample :
    (∃ s : HyperState ℝ Unit, s.hasAbs = true ∧ s.abs.optimize = true ∧ s.abs.v = 0 ∧
      ¬ s.hyperLikli < ((-130 : ℝ) : EReal)) ∧
    (∃ s : HyperState ℝ Unit, s.onlyProbit = false ∧ s.kern = .leaf (.rbf 1 0 0) ∧
      ¬ s.hyperLikli < ((-130 : ℝ) : EReal)) := by
  constructor
  · refine ⟨{ pairsOnly 1 with hasAbs := true, abs := ⟨1, 0, true, true⟩ }, rfl, rfl, rfl, ?_⟩
    rw [C65_rollback_partial _ rfl rfl]
    simp [pairsOnly]
  · refine ⟨{ pairsOnly 1 with onlyProbit := false, kern := .leaf (.rbf 1 0 0) }, rfl, rfl, ?_⟩
    have h1 : logPdfGamma 1 10 (1 / 10) =
        ((Real.log (1 / (Real.Gamma 10 * (1 / 10 : ℝ) ^ (10 : ℝ))) - 10 : ℝ) : EReal) := by
      unfold logPdfGamma
      simp only
      rw [if_neg (by norm_num), if_neg (by norm_num)]
      norm_num
    have h2 : logPdfGamma 0 3 (2 / 5) =
        ((Real.log (1 / (Real.Gamma 3 * (2 / 5 : ℝ) ^ (3 : ℝ))) + 2 * Real.log 0.000001 -
          0.000001 / (2 / 5) : ℝ) : EReal) := by
      unfold logPdfGamma
      simp only
      rw [if_neg (by norm_num), if_pos (by norm_num)]
      norm_num
    have g10 : Real.Gamma 10 = 362880 := by
      norm_num [Nat.factorial]
    have g3 : Real.Gamma 3 = 2 := by
      norm_num [Nat.factorial]
    have l1 : 0 ≤ Real.log (1 / (Real.Gamma 10 * (1 / 10 : ℝ) ^ (10 : ℝ))) := by
      apply Real.log_nonneg
      rw [g10]
      have : (1 / 10 : ℝ) ^ (10 : ℝ) = (1 / 10) ^ (10 : ℕ) := by
        rw [← Real.rpow_natCast]; norm_num
      rw [this]; norm_num
    have l2 : 0 ≤ Real.log (1 / (Real.Gamma 3 * (2 / 5 : ℝ) ^ (3 : ℝ))) := by
      apply Real.log_nonneg
      rw [g3]
      have : (2 / 5 : ℝ) ^ (3 : ℝ) = (2 / 5) ^ (3 : ℕ) := by
        rw [← Real.rpow_natCast]; norm_num
      rw [this]; norm_num
    have l3 : -20 ≤ Real.log 0.000001 := by
      rw [Real.le_log_iff_exp_le (by norm_num), Real.exp_neg]
      have : Real.exp 20 = Real.exp 1 ^ 20 := by rw [← Real.exp_nat_mul]; norm_num
      rw [this]
      have h9 := Real.exp_one_gt_d9
      have : (2 : ℝ) ^ 20 ≤ Real.exp 1 ^ 20 := by gcongr; linarith
      have h10 : (1000000 : ℝ) ≤ Real.exp 1 ^ 20 := le_trans (by norm_num) this
      calc (Real.exp 1 ^ 20)⁻¹ ≤ (1000000 : ℝ)⁻¹ := inv_anti₀ (by norm_num) h10
        _ = 0.000001 := by norm_num
    simp only [HyperState.hyperLikli, HyperState.probitLikli, pairsOnly, PrefHyper.paramLikli,
      KExpr.paramLikli, KLeaf.paramLikli, h1, h2]
    have h0 : (0 : EReal) = ((0 : ℝ) : EReal) := rfl
    simp only [h0, if_true, Bool.false_eq_true, if_false, not_le.2 one_pos, ← EReal.coe_add,
      EReal.coe_lt_coe_iff, not_lt]
    norm_num at l1 l2 l3 ⊢
    linarith

/-- C65 (rollback) – if the search reports convergence, the parameters it leaves are those of the last
gradient step – is false: the parameters are replaced by random ones and convergence is reported in the
same call, when the last gradients cancel. -/
theorem C65_converged_random_counterexample : ∃ (s : HyperState ℝ Unit) (prev : List (List ℝ)),
    s.pref.sigma = 1 ∧ prev.length = 1 ∧ ∀ rng : Nat → ℝ → ℝ → ℝ, ∃ r,
      s.searchStep (fun _ => .ok [-1000]) rng 2 0.3 prev = .ok r ∧ r.converged ∧
      r.state.pref.sigma = rng 0 2 (1 / 10) := by
  refine ⟨pairsOnly 1, [[-1000]], rfl, rfl, fun rng => ?_⟩
  obtain ⟨s1, G, hG, hGl, hs1, hstep⟩ := searchStep_eq (pairsOnly 1) rfl [1] [-1000] rfl
    (fun _ => .ok [-1000]) rfl rfl rng 2 0.3 [[-1000]]
  have hgr : (pairsOnly 1).gradHyperLikli = [0] := rfl
  rw [hgr] at hG
  have hG' : G = [1000] := by rw [hG]; norm_num
  subst hG'
  have h1 : s1 = pairsOnly (-9) := by
    have : (pairsOnly 1).setHyper (List.zipWith (fun a b => a - b * 0.01) [1] [1000]) =
        .ok (pairsOnly (1 - 1000 * 0.01)) := rfl
    rw [hs1] at this
    cases this
    norm_num [pairsOnly]
  subst h1
  have hneg : (pairsOnly (-9)).hyperLikli < ((-130 : ℝ) : EReal) := by
    rw [C65_rollback_partial _ rfl rfl]
    left; refine ⟨rfl, rfl, ?_⟩; norm_num [pairsOnly]
  have hrand : (pairsOnly (-9)).randomizeHyper rng = .ok (pairsOnly (rng 0 2 (1 / 10))) := rfl
  rw [hstep, HyperState.rollback, if_pos hneg, hrand]
  refine ⟨_, rfl, ?_, rfl⟩
  have hw : pushGrad 2 [[-1000]] [(1000 : ℝ)] = [[1000], [-1000]] := rfl
  rw [hw]
  refine ⟨rfl, by norm_num, ?_⟩
  simp [normTwo, meanGrad]
  norm_num

/-! ### The search loop -/

theorem pushGrad_length (avg : Nat) (prev : List (List ℝ)) (g : List ℝ) (h : prev.length ≤ avg) :
    (pushGrad avg prev g).length ≤ avg := by
  rw [pushGrad_take avg prev g h, List.length_take]; omega

theorem searchStep_ok (s : HyperState ℝ P) (likGrad : HyperState ℝ P → Except PyErr (List ℝ))
    (rng : Nat → ℝ → ℝ → ℝ) (avg : Nat) (tol : ℝ) (prev : List (List ℝ)) (r : SearchStep P)
    (h : s.searchStep likGrad rng avg tol prev = .ok r) :
    ∃ (x x' g : List ℝ) (s0 s1 : HyperState ℝ P), s.setHyper x = .ok s0 ∧ s0.setHyper x' = .ok s1 ∧
      s1.rollback rng = .ok r.state ∧ r.window = pushGrad avg prev g ∧
      r.converged = windowConverged avg tol g.length r.window := by
  unfold HyperState.searchStep HyperState.objGrad at h
  simp only [Bind.bind, Except.bind] at h
  cases h1 : s.getHyper with
  | error e => rw [h1] at h; cases h
  | ok x =>
    rw [h1] at h
    simp only at h
    cases h2 : s.setHyper x with
    | error e => rw [h2] at h; cases h
    | ok s0 =>
      rw [h2] at h
      simp only at h
      cases h3 : likGrad s0 with
      | error e => rw [h3] at h; cases h
      | ok g0 =>
        rw [h3] at h
        simp only at h
        cases h4 : broadcast (fun a b => -a - b) g0 s0.gradHyperLikli with
        | error e => rw [h4] at h; cases h
        | ok g =>
          rw [h4] at h
          simp only at h
          cases h5 : broadcast (fun a b => a - b * 0.01) x g with
          | error e => rw [h5] at h; cases h
          | ok x' =>
            rw [h5] at h
            simp only at h
            cases h6 : s0.setHyper x' with
            | error e => rw [h6] at h; cases h
            | ok s1 =>
              rw [h6] at h
              simp only at h
              cases h7 : s1.rollback rng with
              | error e => rw [h7] at h; cases h
              | ok s2 =>
                rw [h7] at h
                cases h
                exact ⟨x, x', g, s0, s1, h2, h6, h7, rfl, rfl⟩

/-- A window that passes the convergence test. -/
def Settled (avg : Nat) (tol : ℝ) (w : List (List ℝ)) : Prop :=
  w.length = avg ∧ ∃ g rest, w = g :: rest ∧ averageLength g.length w < tol

theorem settled_of (avg : Nat) (tol : ℝ) (prev : List (List ℝ)) (g : List ℝ) (hp : prev.length ≤ avg)
    (h : windowConverged avg tol g.length (pushGrad avg prev g)) :
    Settled avg tol (pushGrad avg prev g) := by
  obtain ⟨h1, h2, h3⟩ := h
  refine ⟨h1, g, prev.take (avg - 1), ?_, by rwa [← normTwo_mean]⟩
  rw [pushGrad_take avg prev g hp]
  obtain ⟨n, rfl⟩ : ∃ n, avg = n + 1 := ⟨avg - 1, by omega⟩
  simp

theorem folds_spec (avg : Nat) (tol : ℝ) (likGrad : Nat → HyperState ℝ P → Except PyErr (List ℝ))
    (rng : Nat → Nat → ℝ → ℝ → ℝ) (I : HyperState ℝ P → Prop)
    (hI : ∀ s x s0 x' s1 i s2, I s → s.setHyper x = .ok s0 → s0.setHyper x' = .ok s1 →
      s1.rollback (rng i) = .ok s2 → I s2) (m i : Nat) (s : HyperState ℝ P) (prev : List (List ℝ))
    (hp : prev.length ≤ avg) (hs : I s) (s' : HyperState ℝ P) (w : List (List ℝ)) (c : Bool) (k : Nat)
    (h : searchFolds avg tol likGrad rng m i s prev = .ok (s', w, c, k)) :
    I s' ∧ w.length ≤ avg ∧ k ≤ m ∧ (c = false → k = m) ∧ (c = true → Settled avg tol w) := by
  induction m generalizing i s prev s' w c k with
  | zero =>
    simp only [searchFolds] at h
    cases h
    exact ⟨hs, hp, le_rfl, fun _ => rfl, by simp⟩
  | succ m ih =>
    unfold searchFolds at h
    cases hr : s.searchStep (likGrad i) (rng i) avg tol prev with
    | error e => rw [hr] at h; cases h
    | ok r =>
      rw [hr] at h
      obtain ⟨x, x', g, s0, s1, h1, h2, h3, h4, h5⟩ := searchStep_ok s _ _ _ _ _ _ hr
      have hI' := hI s x s0 x' s1 i r.state hs h1 h2 h3
      have hw : r.window.length ≤ avg := by rw [h4]; exact pushGrad_length avg prev g hp
      simp only at h
      split at h
      · rename_i hc
        cases h
        refine ⟨hI', hw, by omega, by simp, fun _ => ?_⟩
        rw [h5, h4] at hc
        rw [h4]
        exact settled_of avg tol prev g hp hc
      · split at h
        · cases h
        · rename_i hrec
          cases h
          obtain ⟨a1, a2, a3, a4, a5⟩ := ih (i + 1) r.state r.window hw hI' _ _ _ _ hrec
          exact ⟨a1, a2, by omega, fun hc => by have := a4 hc; omega, a5⟩

theorem rounds_spec (avg : Nat) (tol : ℝ) (kFold : Nat) (splits : Nat → Bool)
    (likGrad : Nat → Nat → HyperState ℝ P → Except PyErr (List ℝ))
    (rng : Nat → Nat → Nat → ℝ → ℝ → ℝ) (I : HyperState ℝ P → Prop)
    (hI : ∀ s x s0 x' s1 j i s2, I s → s.setHyper x = .ok s0 → s0.setHyper x' = .ok s1 →
      s1.rollback (rng j i) = .ok s2 → I s2) (m j : Nat) (s : HyperState ℝ P) (prev : List (List ℝ))
    (hp : prev.length ≤ avg) (hs : I s) (s' : HyperState ℝ P) (w : List (List ℝ)) (c : Bool) (k : Nat)
    (h : searchRounds avg tol kFold splits likGrad rng m j s prev = .ok (s', w, c, k)) :
    I s' ∧ w.length ≤ avg ∧ k ≤ m * kFold ∧ (c = false → (∀ j, splits j = true) → k = m * kFold) ∧
      (c = true → Settled avg tol w) := by
  induction m generalizing j s prev s' w c k with
  | zero =>
    simp only [searchRounds] at h
    cases h
    exact ⟨hs, hp, by omega, by simp, by simp⟩
  | succ m ih =>
    unfold searchRounds at h
    split at h
    · split at h
      · cases h
      · rename_i hrec
        cases h
        obtain ⟨a1, a2, a3, a4, a5⟩ := folds_spec avg tol _ _ I
          (fun s x s0 x' s1 i s2 => hI s x s0 x' s1 j i s2) kFold 0 s prev hp hs _ _ _ _ hrec
        refine ⟨a1, a2, ?_, by simp, a5⟩
        rw [Nat.succ_mul]; omega
      · rename_i s2 w2 k2 hrec
        obtain ⟨a1, a2, a3, a4, a5⟩ := folds_spec avg tol _ _ I
          (fun s x s0 x' s1 i s2 => hI s x s0 x' s1 j i s2) kFold 0 s prev hp hs _ _ _ _ hrec
        split at h
        · cases h
        · rename_i hrec2
          cases h
          obtain ⟨b1, b2, b3, b4, b5⟩ := ih (j + 1) _ _ a2 a1 _ _ _ _ hrec2
          refine ⟨b1, b2, by rw [Nat.succ_mul]; omega, fun hc hall => ?_, b5⟩
          have := b4 hc hall
          have := a4 rfl
          rw [Nat.succ_mul]; omega
    · rename_i hsp
      obtain ⟨b1, b2, b3, b4, b5⟩ := ih (j + 1) _ _ hp hs _ _ _ _ h
      exact ⟨b1, b2, by rw [Nat.succ_mul]; omega, fun _ hall => absurd (hall j) hsp, b5⟩

/-- C65 (loop): with tuning switched on and at least four training points the search makes at most 600
steps, exactly 600 if it does not converge; the window never exceeds `hyper_grad_avg` and if convergence
is reported it holds `hyper_grad_avg ≥ 1` gradients whose average is shorter than the tolerance. With
fewer points, or tuning switched off, the hyper-parameters are left alone. -/
theorem C65_loop (s : HyperState ℝ P) (on : Bool) (n : Option Nat) (avg : Nat) (tol : ℝ)
    (rng0 : Nat → ℝ → ℝ → ℝ) (splits : Nat → Bool)
    (likGrad : Nat → Nat → HyperState ℝ P → Except PyErr (List ℝ)) (rng : Nat → Nat → Nat → ℝ → ℝ → ℝ) :
    (on = false ∨ n = none ∨ (∃ m, n = some m ∧ m < 4) →
      s.tune on n avg tol rng0 splits likGrad rng = .ok (s, [], false, 0)) ∧
    ∀ s' w c k, s.tune on n avg tol rng0 splits likGrad rng = .ok (s', w, c, k) →
      k ≤ 600 ∧ w.length ≤ avg ∧
      (c = true → w.length = avg ∧ ∃ g rest, w = g :: rest ∧ averageLength g.length w < tol) ∧
      ((∃ m, n = some m ∧ 4 ≤ m) → on = true → (∀ j, splits j = true) → c = false → k = 600) := by
  constructor
  · rintro (h | h | ⟨m, h, hm⟩)
    · subst h; cases n <;> rfl
    · subst h; cases on <;> rfl
    · subst h
      cases on
      · rfl
      · simp only [HyperState.tune]
        rw [if_neg (by omega)]
  · intro s' w c k h
    have trivialCase : (Except.ok (s, [], false, 0) : Except PyErr _) = .ok (s', w, c, k) →
        k ≤ 600 ∧ w.length ≤ avg ∧
        (c = true → w.length = avg ∧ ∃ g rest, w = g :: rest ∧ averageLength g.length w < tol) := by
      intro h; cases h; exact ⟨by omega, by simp, by simp⟩
    cases on with
    | false =>
      obtain ⟨a1, a2, a3⟩ := trivialCase (by rw [← h]; cases n <;> rfl)
      exact ⟨a1, a2, a3, by simp⟩
    | true =>
      cases n with
      | none =>
        obtain ⟨a1, a2, a3⟩ := trivialCase (by rw [← h]; rfl)
        exact ⟨a1, a2, a3, by simp⟩
      | some m =>
        simp only [HyperState.tune] at h
        split at h
        · rename_i hk
          split at h
          · cases h
          · obtain ⟨-, b2, b3, b4, b5⟩ := rounds_spec avg tol _ splits likGrad rng (fun _ => True)
              (fun _ _ _ _ _ _ _ _ _ _ _ _ => trivial) _ 0 _ [] (by simp) trivial _ _ _ _ h
            have h600 : (600 + min (m / 2) 4 - 1) / min (m / 2) 4 * min (m / 2) 4 = 600 := by
              have h4 : min (m / 2) 4 ≤ 4 := min_le_right _ _
              generalize min (m / 2) 4 = q at hk h4
              interval_cases q <;> rfl
            rw [h600] at b3 b4
            exact ⟨b3, b2, b5, fun _ _ hall hc => b4 hc hall⟩
        · rename_i hk
          obtain ⟨a1, a2, a3⟩ := trivialCase h
          refine ⟨a1, a2, a3, ?_⟩
          rintro ⟨m', hm, h4⟩
          cases hm
          omega

/-- Non-vacuous: a search that always sees a zero gradient converges after `hyper_grad_avg` steps. -/
example : ∃ s' w, (pairsOnly 1).tune true (some 4) 1 1 (fun _ _ _ => 1) (fun _ => true)
    (fun _ _ _ => .ok [0]) (fun _ _ _ _ _ => 1) = .ok (s', w, true, 1) := by
  have hr : (pairsOnly 1).randomizeHyper (fun _ _ _ => 1) = .ok (pairsOnly 1) := rfl
  obtain ⟨s1, G, hG, hGl, hs1, hstep⟩ := searchStep_eq (pairsOnly 1) rfl [1] [0] rfl
    (fun _ => .ok [0]) rfl rfl (fun _ _ _ => 1) 1 1 []
  have hG' : G = [0] := by
    rw [hG, show (pairsOnly 1).gradHyperLikli = [0] from rfl]; norm_num
  subst hG'
  have h1 : s1 = pairsOnly 1 := by
    have : (pairsOnly 1).setHyper (List.zipWith (fun a b => a - b * 0.01) [1] [0]) =
        .ok (pairsOnly (1 - 0 * 0.01)) := rfl
    rw [hs1] at this
    cases this
    norm_num [pairsOnly]
  subst h1
  have hok : ¬ (pairsOnly 1).hyperLikli < ((-130 : ℝ) : EReal) := by
    rw [C65_rollback_partial _ rfl rfl]; norm_num [pairsOnly]
  have hc : windowConverged 1 1 1 [[(0 : ℝ)]] := by
    refine ⟨rfl, by norm_num, ?_⟩
    simp [normTwo, meanGrad]
  rw [HyperState.rollback, if_neg hok] at hstep
  refine ⟨pairsOnly 1, [[0]], ?_⟩
  simp only [HyperState.tune, hr]
  norm_num
  unfold searchRounds
  simp only [if_true]
  unfold searchFolds
  rw [hstep]
  simp only [Except.map]
  rw [if_pos (show windowConverged 1 1 [(0 : ℝ)].length (pushGrad 1 [] [0]) from hc)]
  rfl

/-- C65 (validity): if the random draws are positive, a search over the noise of the pairs and (if there
are ratings) their precision ends with a positive noise level and a precision that is not negative,
whatever the gradients. -/
theorem C65_valid (s : HyperState ℝ P) (hp : s.hasPref = true) (hpo : s.pref.optimize = true)
    (ho : s.hasOrd = false) (hk : s.onlyProbit = true) (hv : s.abs.vOnly = true)
    (ha : s.hasAbs = true → s.abs.optimize = true) (n avg : Nat) (tol : ℝ) (hn : 4 ≤ n)
    (rng0 : Nat → ℝ → ℝ → ℝ) (splits : Nat → Bool)
    (likGrad : Nat → Nat → HyperState ℝ P → Except PyErr (List ℝ)) (rng : Nat → Nat → Nat → ℝ → ℝ → ℝ)
    (hr0 : ∀ i k θ, 0 < rng0 i k θ) (hr : ∀ j i l k θ, 0 < rng j i l k θ)
    (s' : HyperState ℝ P) (w : List (List ℝ)) (c : Bool) (k : Nat)
    (h : s.tune true (some n) avg tol rng0 splits likGrad rng = .ok (s', w, c, k)) :
    0 < s'.pref.sigma ∧ (s'.hasAbs = true → 0 ≤ s'.abs.v) ∧ s'.hasAbs = s.hasAbs := by
  let F : HyperState ℝ P → Prop := fun t => t.hasPref = true ∧ t.pref.optimize = true ∧ t.hasOrd = false ∧
    t.onlyProbit = true ∧ t.abs.vOnly = true ∧ t.hasAbs = s.hasAbs ∧ t.abs.optimize = s.abs.optimize
  let I : HyperState ℝ P → Prop := fun t => F t ∧ 0 < t.pref.sigma ∧ (t.hasAbs = true → 0 ≤ t.abs.v)
  have hF : ∀ t x t', F t → t.setHyper x = .ok t' → F t' := by
    rintro t x t' ⟨f1, f2, f3, f4, f5, f6, f7⟩ hset
    obtain ⟨e1, e2, e3, e4, e5, e6, e7⟩ := setHyper_flags t t' x hset
    exact ⟨e1.trans f1, e5.trans f2, e2.trans f3, e4.trans f4, e7.trans f5, e3.trans f6, e6.trans f7⟩
  have hrand : ∀ t t' (r : Nat → ℝ → ℝ → ℝ), (∀ i k θ, 0 < r i k θ) → F t →
      t.randomizeHyper r = .ok t' → I t' := by
    rintro t t' r hpos hFt hset
    obtain ⟨f1, f2, f3, f4, f5, f6, f7⟩ := hFt
    obtain ⟨t'', ht, idx, -, hdraw⟩ := C24_own_prior_partial t r f1 f2 f3
      (fun h => by rw [f7]; exact ha (f6 ▸ h)) (Or.inl f4)
    rw [hset] at ht
    cases ht
    have hF' : F t' := by
      unfold HyperState.randomizeHyper at hset
      simp only [f4, if_true, Bind.bind, Except.bind] at hset
      split at hset
      · cases hset
      · rename_i hs1
        exact hF _ _ _ (hF _ _ _ ⟨f1, f2, f3, f4, f5, f6, f7⟩ hs1) hset
    refine ⟨hF', ?_, fun hab => ?_⟩
    · obtain ⟨q, -, h2⟩ := hdraw .prefSigma (by simp [layout, f1, f2])
      simp only [readSlot, Option.some.injEq] at h2
      rw [h2]; exact hpos _ _ _
    · have hab' : t.hasAbs = true := by rw [f6, ← hF'.2.2.2.2.2.1]; exact hab
      have hopt : t.abs.optimize = true := by rw [f7]; exact ha (f6 ▸ hab')
      obtain ⟨q, -, h2⟩ := hdraw .absV (by simp [layout, hab', hopt, f5])
      simp only [readSlot, Option.some.injEq] at h2
      rw [h2]; exact (hpos _ _ _).le
  have hF0 : F s := ⟨hp, hpo, ho, hk, hv, rfl, rfl⟩
  simp only [HyperState.tune] at h
  rw [if_pos (by omega)] at h
  split at h
  · cases h
  · rename_i s1 hs1
    have := rounds_spec avg tol _ splits likGrad rng I (by
      rintro t x t0 x' t1 j i t2 ⟨hFt, -, -⟩ h1 h2 h3
      have hF1 := hF _ _ _ (hF _ _ _ hFt h1) h2
      unfold HyperState.rollback at h3
      split at h3
      · exact hrand _ _ _ (hr j i) hF1 h3
      · rename_i hge
        cases h3
        obtain ⟨f1, f2, f3, f4, f5, f6, f7⟩ := hF1
        rw [C65_rollback_partial _ f4 f5] at hge
        push Not at hge
        exact ⟨⟨f1, f2, f3, f4, f5, f6, f7⟩, hge.1 f1 f2, fun hab =>
          hge.2 hab (by rw [f7]; exact ha (f6 ▸ hab))⟩) _ 0 _ [] (by simp)
      (hrand _ _ _ hr0 hF0 hs1) _ _ _ _ h
    exact ⟨this.1.2.1, this.1.2.2, this.1.1.2.2.2.2.2.1⟩

/-- Non-vacuous: pairs and ratings with default settings. -/
example : ∃ s : HyperState ℝ Unit, s.hasPref = true ∧ s.pref.optimize = true ∧ s.hasOrd = false ∧
    s.onlyProbit = true ∧ s.abs.vOnly = true ∧ s.hasAbs = true ∧ s.abs.optimize = true :=
  ⟨{ pairsOnly 1 with hasAbs := true }, rfl, rfl, rfl, rfl, rfl, rfl, rfl⟩

end

end Lop.Props
