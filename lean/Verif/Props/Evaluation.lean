import Verif.Model.Evaluation
import Verif.Spec.Evaluation
import Verif.Proofs.Select
import Verif.Proofs.Alignment
import Verif.Props.Alignment
import Mathlib.Order.Interval.Finset.Fin
import Mathlib.Tactic.Linarith
import Mathlib.Tactic.Ring
import Mathlib.Tactic.FinCases
import Mathlib.Tactic.NormNum

/-! # C80: the evaluation of a trained model in the experiments -/

namespace Lop.Props

open Lop Spec Finset

variable {k : Nat}

theorem descIdx_inj {v : Fin k → ℝ} {σ : Fin k → Fin k} (h : IsArgsort v σ) : Function.Injective (descIdx σ) :=
  fun _ _ e => Fin.rev_injective (h.inj e)

theorem descIdx_surj {v : Fin k → ℝ} {σ : Fin k → Fin k} (h : IsArgsort v σ) : Function.Surjective (descIdx σ) :=
  Finite.surjective_of_injective (descIdx_inj h)

theorem descIdx_anti {v : Fin k → ℝ} {σ : Fin k → Fin k} (h : IsArgsort v σ) {i j : Fin k} (hij : i ≤ j) :
    v (descIdx σ j) ≤ v (descIdx σ i) :=
  h.sorted _ _ (Fin.rev_le_rev.2 hij)

theorem findIdx_ofFn {d : Fin k → Fin k} (hinj : Function.Injective d) (r : Fin k) :
    (List.ofFn fun j => (d j).val).findIdx? (· == (d r).val) = some r.val := by
  rw [List.findIdx?_eq_some_iff_getElem]
  refine ⟨by simp, by simp, fun j hj => ?_⟩
  have hjk : j < k := lt_trans hj r.isLt
  simp only [List.getElem_ofFn, beq_iff_eq]
  intro e
  have := hinj (Fin.ext e)
  rw [← this] at hj
  exact lt_irrefl _ hj

/-- `evalOne` once the best index is known. -/
theorem evalOne_eq {ord : Finset Nat → List Nat} {pareto : List Nat} {scores util : Fin k → ℝ}
    {σs σu : Fin k → Fin k} (hu : IsArgsort util σu) (r : Fin k)
    (hb : selectBest ord (List.ofFn scores) pareto.toFinset ∅ = .ok (descIdx σu r).val) :
    evalOne ord pareto scores util σs σu = .ok
      { best := (descIdx σu r).val, rank := r.val, estimated := scores (descIdx σu r)
        real := util (descIdx σu r)
        diff := util (descIdx σu ⟨0, lt_of_le_of_lt (Nat.zero_le _) r.isLt⟩) - util (descIdx σu r)
        spearman := evalSpearman σu σs, pearson := corrEntry util scores, rho := evalRho scores util } := by
  have hk : 0 < k := lt_of_le_of_lt (Nat.zero_le _) r.isLt
  have h0 : (List.ofFn (descIdx σu))[0]? = some (descIdx σu ⟨0, hk⟩) := by
    rw [List.getElem?_eq_getElem (by simpa using hk)]; simp
  simp only [evalOne, hb, h0, findIdx_ofFn (descIdx_inj hu) r]
  simp

/-- The scores have a best position, and `select_best` finds one when the set is `0..k-1`. -/
theorem selectBest_prefix {ord : Finset Nat → List Nat} (ho : Enumerates ord) (hk : 0 < k) (scores : Fin k → ℝ)
    {pareto : List Nat} (hp : pareto.toFinset = Finset.range k) :
    ∃ b : Fin k, selectBest ord (List.ofFn scores) pareto.toFinset ∅ = .ok b.val ∧ ∀ j, scores j ≤ scores b := by
  have hr : Finset.range k ≠ ∅ := by simpa using hk.ne'
  obtain ⟨i, hi, hm, hbest⟩ := selectBest_ok ho (List.ofFn scores) pareto.toFinset ∅ (by simp [hp])
    (by simpa using hk.ne')
  have hik : i < k := by
    have : i ∈ Finset.range k := by simpa [hp, hr] using hm
    simpa using this
  refine ⟨⟨i, hik⟩, hi, fun j => ?_⟩
  have hj : j.val ∈ (if pareto.toFinset \ ∅ = ∅ then Finset.range (List.ofFn scores).length \ ∅
      else pareto.toFinset \ ∅) := by simp [hp, hr]
  refine hbest j.val hj _ _ ?_ ?_
  · rw [List.getElem?_eq_getElem (by simpa using hik)]; simp
  · rw [List.getElem?_eq_getElem (by simp)]; simp

theorem numBetter_le_rank {v : Fin k → ℝ} {σ : Fin k → Fin k} (h : IsArgsort v σ) (r : Fin k) :
    numBetter v (descIdx σ r) ≤ r.val := by
  have : (univ.filter fun j => v (descIdx σ r) < v j) ⊆ (Finset.Iio r).image (descIdx σ) := by
    intro j hj
    obtain ⟨i, rfl⟩ := descIdx_surj h j
    have hj' := (Finset.mem_filter.1 hj).2
    refine Finset.mem_image.2 ⟨i, Finset.mem_Iio.2 ?_, rfl⟩
    by_contra hlt
    exact absurd hj' (not_lt.2 (descIdx_anti h (not_lt.1 hlt)))
  refine (Finset.card_le_card this).trans (Finset.card_image_le.trans ?_)
  rw [Fin.card_Iio]

theorem rank_lt_numAtLeast {v : Fin k → ℝ} {σ : Fin k → Fin k} (h : IsArgsort v σ) (r : Fin k) :
    r.val < numAtLeast v (descIdx σ r) := by
  have : (Finset.Iic r).image (descIdx σ) ⊆ univ.filter fun j => v (descIdx σ r) ≤ v j := by
    intro j hj
    obtain ⟨i, hi, rfl⟩ := Finset.mem_image.1 hj
    exact Finset.mem_filter.2 ⟨mem_univ _, descIdx_anti h (Finset.mem_Iic.1 hi)⟩
  have hc := Finset.card_le_card this
  rw [Finset.card_image_of_injective _ (descIdx_inj h), Fin.card_Iic] at hc
  exact Nat.lt_of_succ_le hc

/-- C80 (one environment): when the indices are `0..k-1` the pass succeeds; the chosen candidate has the
largest score, the recorded regret is the best utility minus that of the choice (never negative), and the
rank lies between the number of strictly better candidates and that of the other candidates at least as
good. -/
theorem C80_row {ord : Finset Nat → List Nat} (ho : Enumerates ord) (hk : 0 < k) (scores util : Fin k → ℝ)
    {σs σu : Fin k → Fin k} (hu : IsArgsort util σu) {pareto : List Nat}
    (hp : pareto.toFinset = Finset.range k) :
    ∃ r, evalOne ord pareto scores util σs σu = .ok r ∧ ∃ b t : Fin k, r.best = b.val ∧
      (∀ j, scores j ≤ scores b) ∧ (∀ j, util j ≤ util t) ∧
      r.estimated = scores b ∧ r.real = util b ∧ r.diff = util t - util b ∧ 0 ≤ r.diff ∧
      numBetter util b ≤ r.rank ∧ r.rank < numAtLeast util b ∧ (r.rank = 0 → r.diff = 0) := by
  obtain ⟨b, hb, hmax⟩ := selectBest_prefix ho hk scores hp
  obtain ⟨r, rfl⟩ := descIdx_surj hu b
  have ht : ∀ j, util j ≤ util (descIdx σu ⟨0, hk⟩) := fun j => by
    obtain ⟨i, rfl⟩ := descIdx_surj hu j
    exact descIdx_anti hu (Fin.mk_le_of_le_val (Nat.zero_le _))
  refine ⟨_, evalOne_eq hu r hb, descIdx σu r, descIdx σu ⟨0, hk⟩, rfl, hmax, ht, rfl, rfl, rfl, ?_,
    numBetter_le_rank hu r, rank_lt_numAtLeast hu r, fun h0 => ?_⟩
  · exact sub_nonneg.2 (ht _)
  · have : r = ⟨0, hk⟩ := Fin.ext h0
    simp [this]

/-- C80 (what an accurate model gets): scores within `eps` of the utilities, up to a constant the comparisons cannot
reveal, cost at most `2 eps` of utility, and no candidate is more than `2 eps` better than the choice; if every better
candidate has a higher score, the regret is 0. -/
theorem C80_accurate {ord : Finset Nat → List Nat} (ho : Enumerates ord) (hk : 0 < k) (scores util : Fin k → ℝ)
    {σs σu : Fin k → Fin k} (hu : IsArgsort util σu) {pareto : List Nat}
    (hp : pareto.toFinset = Finset.range k) :
    ∃ r, evalOne ord pareto scores util σs σu = .ok r ∧
      (∀ eps c : ℝ, (∀ j, |scores j - util j - c| ≤ eps) → r.diff ≤ 2 * eps ∧
        ∀ b : Fin k, r.best = b.val → ∀ j, util j ≤ util b + 2 * eps) ∧
      ((∀ i j, util i < util j → scores i < scores j) → r.diff = 0) := by
  obtain ⟨r, hr, b, t, hb, hbest, ht, _, _, hd, h0, _, _, _⟩ := C80_row (σs := σs) ho hk scores util hu hp
  have key : ∀ eps c : ℝ, (∀ j, |scores j - util j - c| ≤ eps) → ∀ j, util j ≤ util b + 2 * eps := by
    intro eps c h j
    have h1 := abs_le.1 (h b)
    have h2 := abs_le.1 (h j)
    linarith [hbest j]
  refine ⟨r, hr, fun eps c h => ⟨?_, fun b' hb' j => ?_⟩, fun h => ?_⟩
  · linarith [key eps c h t]
  · have : b' = b := Fin.ext (by omega)
    rw [this]
    exact key eps c h j
  · refine le_antisymm ?_ h0
    by_contra hc
    push Not at hc
    have := h b t (by linarith)
    linarith [hbest t]

/-- Scores to which `C80_accurate` applies: within `1/4` of the utilities plus 1, and ordered differently. -/
example : ∀ j : Fin 3, |(![2, 2 + 1 / 8, 4] : Fin 3 → ℝ) j - (![1, 1 - 1 / 8, 3] : Fin 3 → ℝ) j - 1| ≤ 1 / 4 := by
  intro j
  fin_cases j <;> norm_num [abs_le]

/-- C80 without ties in the utilities: the rank is the number of better candidates, and it is zero exactly
when the regret is zero. -/
theorem C80_rank {ord : Finset Nat → List Nat} (ho : Enumerates ord) (hk : 0 < k) (scores util : Fin k → ℝ)
    {σs σu : Fin k → Fin k} (hu : IsArgsort util σu) {pareto : List Nat}
    (hp : pareto.toFinset = Finset.range k) (hinj : Function.Injective util) :
    ∃ r, evalOne ord pareto scores util σs σu = .ok r ∧ ∃ b : Fin k, r.best = b.val ∧
      r.rank = numBetter util b ∧ (r.rank = 0 ↔ r.diff = 0) := by
  obtain ⟨r, hr, b, t, hb, _, ht, _, _, hd, h0, h1, h2, h3⟩ := C80_row (σs := σs) ho hk scores util hu hp
  have he : numAtLeast util b = numBetter util b + 1 := by
    have : (univ.filter fun j => util b ≤ util j) = insert b (univ.filter fun j => util b < util j) := by
      ext j
      simp only [mem_filter, mem_univ, true_and, mem_insert]
      constructor
      · intro h
        rcases h.lt_or_eq with h | h
        · exact .inr h
        · exact .inl (hinj h).symm
      · rintro (rfl | h)
        · exact le_rfl
        · exact h.le
    rw [numAtLeast, this, card_insert_of_notMem (by simp), numBetter]
  have hrank : r.rank = numBetter util b := by omega
  refine ⟨r, hr, b, hb, hrank, h3, fun hz => ?_⟩
  rw [hrank, numBetter, card_eq_zero, filter_eq_empty_iff]
  intro j _
  have := ht j
  rw [hd] at hz
  linarith

theorem gather_error (a : List ℝ) (idx : List Nat) (h : ∃ i ∈ idx, a.length ≤ i) :
    gather a idx = .error .indexError := by
  induction idx with
  | nil => simp at h
  | cons i rest ih =>
    rw [gather]
    by_cases hi : a.length ≤ i
    · rw [List.getElem?_eq_none hi]
    · rw [List.getElem?_eq_getElem (not_le.1 hi)]
      have : ∃ i ∈ rest, a.length ≤ i := by
        obtain ⟨j, hj, hl⟩ := h
        rcases List.mem_cons.1 hj with rfl | hj
        · exact absurd hl hi
        · exact ⟨j, hj, hl⟩
      rw [ih this]

theorem evalOne_index_error {ord : Finset Nat → List Nat} (ho : Enumerates ord) (scores util : Fin k → ℝ)
    (σs σu : Fin k → Fin k) {pareto : List Nat} (h : ∃ i ∈ pareto, k ≤ i) :
    evalOne ord pareto scores util σs σu = .error .indexError := by
  obtain ⟨i, hi, hki⟩ := h
  have hne : pareto.toFinset ≠ ∅ := by
    intro e
    have : i ∈ pareto.toFinset := by simpa using hi
    rw [e] at this
    simp at this
  have hs : selectBest ord (List.ofFn scores) pareto.toFinset ∅ = .error .indexError := by
    rw [selectBest]
    simp only [sdiff_empty, hne, if_false]
    rw [gather_error _ _ ⟨i, (ho _ _).2 (by simpa using hi), by simpa using hki⟩]
  rw [evalOne, hs]

theorem nodup_range {l : List Nat} (hn : l.Nodup) (h : ∀ i ∈ l, i < l.length) :
    l.toFinset = Finset.range l.length := by
  apply Finset.eq_of_subset_of_card_le
  · intro i hi
    simpa using h i (by simpa using hi)
  · rw [List.toFinset_card_of_nodup hn, Finset.card_range]

theorem takeRows_ok {X : Type*} (rewards : List X) (idx : List Nat) (h : ∀ i ∈ idx, i < rewards.length) :
    ∃ rows, takeRows rewards idx = .ok rows ∧ rows.length = idx.length := by
  induction idx with
  | nil => exact ⟨[], rfl, rfl⟩
  | cons i rest ih =>
    obtain ⟨rows, hr, hl⟩ := ih fun j hj => h j (by simp [hj])
    refine ⟨rewards[i]'(h i (by simp)) :: rows, ?_, by simp [hl]⟩
    rw [takeRows, List.getElem?_eq_getElem (h i (by simp)), hr]

theorem takeRows_error {X : Type*} (rewards : List X) (idx : List Nat) (h : ∃ i ∈ idx, rewards.length ≤ i) :
    takeRows rewards idx = .error .indexError := by
  induction idx with
  | nil => simp at h
  | cons i rest ih =>
    rw [takeRows]
    by_cases hi : rewards.length ≤ i
    · rw [List.getElem?_eq_none hi]
    · rw [List.getElem?_eq_getElem (not_le.1 hi)]
      have : ∃ i ∈ rest, rewards.length ≤ i := by
        obtain ⟨j, hj, hl⟩ := h
        rcases List.mem_cons.1 hj with rfl | hj
        · exact absurd hl hi
        · exact ⟨j, hj, hl⟩
      rw [ih this]

/-- C80 (indices): the Pareto candidates are taken out of the rewards first, and then their old indices are
used once more on the shortened arrays. For different indices the pass therefore succeeds exactly when they
are the first ones, `0..k-1` in some order; otherwise it raises `IndexError`. -/
theorem C80_index {X : Type*} {ord : Finset Nat → List Nat} (ho : Enumerates ord) (fns : EvalFns X)
    (hs : ∀ {k : ℕ} (v : Fin k → ℝ), IsArgsort v (fns.argsort v)) (rewards : List X) (pareto : List Nat)
    (hn : pareto.Nodup) (hne : pareto ≠ []) :
    ((∀ i, i ∈ pareto ↔ i < pareto.length) ∧ pareto.length ≤ rewards.length ∧
      ∃ r, evalEnv ord fns (rewards, pareto) = .ok r) ∨
    (¬ ((∀ i, i ∈ pareto ↔ i < pareto.length) ∧ pareto.length ≤ rewards.length) ∧
      evalEnv ord fns (rewards, pareto) = .error .indexError) := by
  have hpos : 0 < pareto.length := List.length_pos_iff.2 hne
  by_cases hr : ∀ i ∈ pareto, i < rewards.length
  · obtain ⟨rows, hrows, hl⟩ := takeRows_ok rewards pareto hr
    by_cases hk : ∀ i ∈ pareto, i < pareto.length
    · have hset := nodup_range hn hk
      refine .inl ⟨fun i => ⟨hk i, fun h => ?_⟩, ?_, ?_⟩
      · have : i ∈ pareto.toFinset := by rw [hset]; simpa using h
        simpa using this
      · by_contra hlt
        have : rewards.length ∈ pareto.toFinset := by rw [hset]; simpa using hlt
        exact lt_irrefl _ (hr _ (by simpa using this))
      · obtain ⟨r, h, _⟩ := C80_row (σs := fns.argsort (fns.score rows)) ho (by omega) (fns.score rows)
          (fns.util rows) (hs (fns.util rows)) (by rw [hset, hl])
        exact ⟨r, by simp only [evalEnv, hrows, h]⟩
    · refine .inr ⟨fun h => hk fun i hi => (h.1 i).1 hi, ?_⟩
      push Not at hk
      obtain ⟨i, hi, hle⟩ := hk
      simp only [evalEnv, hrows]
      exact evalOne_index_error ho _ _ _ _ ⟨i, hi, by omega⟩
  · push Not at hr
    refine .inr ⟨fun h => ?_, ?_⟩
    · obtain ⟨i, hi, hle⟩ := hr
      have := (h.1 i).1 hi
      omega
    · simp only [evalEnv, takeRows_error rewards pareto hr]

/-- C80 (no Pareto candidate): `select_best` raises. -/
theorem C80_no_candidate {X : Type*} (ord : Finset Nat → List Nat) (fns : EvalFns X) (rewards : List X) :
    evalEnv ord fns (rewards, []) = .error .exception := by
  simp [evalEnv, takeRows, evalOne, selectBest]

/-- C80 (indices), the usual case that fails: with the indices of the Pareto optimal rewards themselves the
evaluation raises as soon as a dominated point comes before one of them. -/
theorem C80_pareto_counterexample {ord : Finset Nat → List Nat} (ho : Enumerates ord)
    (fns : EvalFns (Fin 2 → ℤ)) (hs : ∀ {k : ℕ} (v : Fin k → ℝ), IsArgsort v (fns.argsort v)) :
    getPareto [![0, 0], ![1, (1 : ℤ)]] = [1] ∧
      evalEnv ord fns ([![0, 0], ![1, 1]], getPareto [![0, 0], ![1, (1 : ℤ)]]) = .error .indexError := by
  have h : getPareto [![0, 0], ![1, (1 : ℤ)]] = [1] := by decide +kernel
  refine ⟨h, ?_⟩
  rw [h]
  rcases C80_index ho fns hs [![0, 0], ![1, 1]] [1] (by simp) (by simp) with ⟨h1, _⟩ | ⟨_, h2⟩
  · have := (h1 1).1 (by simp)
    simp at this
  · exact h2

/-! ## Rank correlation -/

theorem numBetter_desc {v : Fin k → ℝ} {σ : Fin k → Fin k} (h : IsArgsort v σ) (hv : Function.Injective v)
    (r : Fin k) : numBetter v (descIdx σ r) = r.val := by
  have h1 := numBetter_le_rank h r
  have h2 := rank_lt_numAtLeast h r
  have he : numAtLeast v (descIdx σ r) ≤ numBetter v (descIdx σ r) + 1 := by
    rw [numAtLeast, numBetter]
    refine (Finset.card_le_card (t := insert (descIdx σ r) (univ.filter fun j => v (descIdx σ r) < v j)) ?_).trans
      (card_insert_le _ _)
    intro j hj
    simp only [mem_filter, mem_univ, true_and, mem_insert] at hj ⊢
    rcases hj.lt_or_eq with h | h
    · exact .inr h
    · exact .inl (hv h).symm
  omega

theorem argsort_unique {v : Fin k → ℝ} {σ τ : Fin k → Fin k} (hσ : IsArgsort v σ) (hτ : IsArgsort v τ)
    (hv : Function.Injective v) : σ = τ := by
  have hd : ∀ i, descIdx σ i = descIdx τ i := by
    intro i
    obtain ⟨m, hm⟩ := descIdx_surj hσ (descIdx τ i)
    have h1 := numBetter_desc hσ hv m
    rw [hm, numBetter_desc hτ hv i] at h1
    rw [← hm, Fin.ext h1]
  funext i
  have := hd (Fin.rev i)
  simpa [descIdx] using this

theorem npCorr_of_pearson (hd : 2 ≤ k) {x y : Fin k → ℝ} (hx : NonConstant x) (hy : NonConstant y) {r : ℝ}
    (h : IsPearson x y r) : npCorr x y = some r := by
  rw [npCorr_eq hd hx hy]
  have h' := isPearson_uRow hx hy
  have pos : ∀ {z : Fin k → ℝ}, NonConstant z → √(∑ j, ∑ l, (z j - z l) ^ 2) ≠ 0 := by
    rintro z ⟨j, l, hjl⟩
    apply Real.sqrt_ne_zero'.2
    refine lt_of_lt_of_le (sq_pos_of_ne_zero (sub_ne_zero.2 hjl)) ?_
    refine (single_le_sum (f := fun l => (z j - z l) ^ 2) (fun _ _ => sq_nonneg _) (mem_univ l)).trans ?_
    exact single_le_sum (f := fun j => ∑ l, (z j - z l) ^ 2) (fun _ _ => sum_nonneg fun _ _ => sq_nonneg _)
      (mem_univ j)
  rw [IsPearson] at h h'
  exact congrArg some (mul_right_cancel₀ (mul_ne_zero (pos hx) (pos hy)) (h'.trans h.symm))

theorem nonConstant_desc (hk : 2 ≤ k) {v : Fin k → ℝ} {σ : Fin k → Fin k} (h : IsArgsort v σ) :
    NonConstant fun j => ((descIdx σ j).val : ℝ) := by
  refine ⟨⟨0, by omega⟩, ⟨1, by omega⟩, fun e => ?_⟩
  have := descIdx_inj h (Fin.ext (Nat.cast_injective e))
  simp at this

/-- C80 (`spearman`): two orders that agree (no ties) give 1; the value always lies in `[-1, 1]`; for one
candidate it is `nan`. -/
theorem C80_spearman_same {util scores : Fin k → ℝ} {σu σs : Fin k → Fin k} (hu : IsArgsort util σu)
    (hs : IsArgsort scores σs) :
    (k < 2 → evalSpearman σu σs = none) ∧
    (2 ≤ k → ∃ r, evalSpearman σu σs = some r ∧ -1 ≤ r ∧ r ≤ 1) ∧
    (2 ≤ k → Function.Injective util → SameOrder util scores → evalSpearman σu σs = some 1) := by
  refine ⟨fun h => by simp [evalSpearman, corrEntry, h], fun h => ?_, fun h hi ho => ?_⟩
  · refine ⟨_, by rw [evalSpearman, corrEntry, if_neg (by omega),
      npCorr_eq h (nonConstant_desc h hu) (nonConstant_desc h hs)], ?_⟩
    exact inner_uRow_le _ _ (nonConstant_desc h hu) (nonConstant_desc h hs)
  · have hs' : IsArgsort util σs := by
      refine ⟨hs.inj, fun i j hij => ?_⟩
      have := hs.sorted i j hij
      by_contra hlt
      exact absurd ((ho _ _).1 (not_le.1 hlt)) (not_lt.2 this)
    rw [argsort_unique hs' hu hi, evalSpearman, corrEntry, if_neg (by omega),
      npCorr_eq h (nonConstant_desc h hu) (nonConstant_desc h hu),
      (inner_uRow_eq_one (nonConstant_desc h hu) (nonConstant_desc h hu)).2]
    rfl

theorem avgRank_inj {v : Fin k → ℝ} (hv : Function.Injective v) (j : Fin k) :
    avgRank v j = (k : ℝ) - numBetter v j := by
  have h1 : ∀ l, (if v l < v j then (1 : ℝ) else if v l = v j then 1 / 2 else 0) =
      1 - (if v j < v l then 1 else 0) - (if l = j then 1 / 2 else 0) := by
    intro l
    rcases lt_trichotomy (v l) (v j) with h | h | h
    · have : l ≠ j := by rintro rfl; exact lt_irrefl _ h
      simp [h, not_lt.2 h.le, this]
    · have : l = j := hv h
      subst this
      norm_num
    · have : l ≠ j := by rintro rfl; exact lt_irrefl _ h
      simp [h, not_lt.2 h.le, this, h.ne']
  rw [avgRank]
  simp only [h1, sum_sub_distrib, sum_const, card_univ, Fintype.card_fin, nsmul_eq_mul, mul_one,
    sum_ite_eq', mem_univ, if_true, sum_boole, numBetter]
  ring

/-- C80 (`spearman`), what holds: if the candidates happen to be listed from the best to the worst true
utility and no scores are tied, the reported number is the rank correlation of utilities and scores.
(`C80_spearman_counterexample`: not in general.) -/
theorem C80_spearman_partial (hk : 2 ≤ k) {util scores : Fin k → ℝ} {σu σs : Fin k → Fin k}
    (hu : IsArgsort util σu) (hs : IsArgsort scores σs) (hanti : StrictAnti util)
    (hinj : Function.Injective scores) :
    ∃ r, evalSpearman σu σs = some r ∧ IsPearson (avgRank util) (avgRank scores) r := by
  have hui : Function.Injective util := hanti.injective
  have hub : ∀ b : Fin k, numBetter util b = b.val := by
    intro b
    have : (univ.filter fun j => util b < util j) = Finset.Iio b := by
      ext j
      simp [hanti.lt_iff_gt]
    rw [numBetter, this, Fin.card_Iio]
  have hid : ∀ i, descIdx σu i = i := fun i => Fin.ext (by rw [← hub, numBetter_desc hu hui i])
  set e : Fin k ≃ Fin k := Equiv.ofBijective (descIdx σs) ⟨descIdx_inj hs, descIdx_surj hs⟩ with he
  have hde : ∀ i, descIdx σs i = e i := fun i => rfl
  have hR : ∀ i, avgRank scores (e i) = (k : ℝ) - (i.val : ℝ) := fun i => by
    rw [avgRank_inj hinj, ← hde, numBetter_desc hs hinj i]
  have hU : ∀ i, avgRank util i = (k : ℝ) - (i.val : ℝ) := fun i => by rw [avgRank_inj hui, hub]
  have hx := nonConstant_desc hk hu
  have hy := nonConstant_desc hk hs
  obtain ⟨r, hc, hp⟩ : ∃ r, npCorr (fun j => ((descIdx σu j).val : ℝ)) (fun j => ((descIdx σs j).val : ℝ)) =
      some r ∧ IsPearson (fun j => ((descIdx σu j).val : ℝ)) (fun j => ((descIdx σs j).val : ℝ)) r :=
    ⟨_, npCorr_eq hk hx hy, isPearson_uRow hx hy⟩
  refine ⟨r, by rw [evalSpearman, corrEntry, if_neg (by omega), hc], ?_⟩
  simp only [IsPearson, hid, hde] at hp ⊢
  have re : ∀ f : Fin k → Fin k → ℝ, ∑ j, ∑ l, f j l = ∑ j, ∑ l, f (e j) (e l) := fun f => by
    rw [← Equiv.sum_comp e]
    exact sum_congr rfl fun j _ => (Equiv.sum_comp e (f (e j))).symm
  have n1 : ∑ j, ∑ l, (avgRank util j - avgRank util l) ^ 2 =
      ∑ j : Fin k, ∑ l : Fin k, ((e j : ℝ) - (e l : ℝ)) ^ 2 := by
    rw [re]
    exact sum_congr rfl fun j _ => sum_congr rfl fun l _ => by rw [hU, hU]; ring
  have n2 : ∑ j, ∑ l, (avgRank scores j - avgRank scores l) ^ 2 =
      ∑ j : Fin k, ∑ l : Fin k, ((j : ℝ) - (l : ℝ)) ^ 2 := by
    rw [re]
    exact sum_congr rfl fun j _ => sum_congr rfl fun l _ => by rw [hR, hR]; ring
  have n3 : ∑ j, ∑ l, (avgRank util j - avgRank util l) * (avgRank scores j - avgRank scores l) =
      ∑ j : Fin k, ∑ l : Fin k, ((j : ℝ) - (l : ℝ)) * ((e j : ℝ) - (e l : ℝ)) := by
    rw [re]
    exact sum_congr rfl fun j _ => sum_congr rfl fun l _ => by rw [hR, hR, hU, hU]; ring
  rw [n1, n2, n3, ← hp, mul_comm √(∑ j : Fin k, ∑ l : Fin k, ((e j : ℝ) - (e l : ℝ)) ^ 2)]

theorem vec_three_two (a b c : ℝ) : (![a, b, c] : Fin 3 → ℝ) 2 = c := rfl

theorem isArgsort_three {v : Fin 3 → ℝ} {σ : Fin 3 → Fin 3} (hσ : Function.Injective σ)
    (h1 : v (σ 0) ≤ v (σ 1)) (h2 : v (σ 1) ≤ v (σ 2)) : IsArgsort v σ := by
  refine ⟨hσ, fun i j hij => ?_⟩
  fin_cases i <;> fin_cases j <;> first
    | exact le_rfl
    | exact h1
    | exact h2
    | exact h1.trans h2
    | exact absurd hij (by decide)

/-- C80 (`spearman`), not the rank correlation: the permutations returned by `argsort` are correlated instead
of the ranks. Three candidates scored in exactly the opposite order of their utilities (rank correlation
-1) are reported with `spearman = 1/2`. -/
theorem C80_spearman_counterexample :
    let util : Fin 3 → ℝ := ![3, 1, 2]
    let scores : Fin 3 → ℝ := ![1, 3, 2]
    OppositeOrder util scores ∧ IsPearson (avgRank util) (avgRank scores) (-1) ∧
    ∀ σu σs : Fin 3 → Fin 3, IsArgsort util σu → IsArgsort scores σs → evalSpearman σu σs = some (1 / 2) := by
  intro util scores
  have hu : Function.Injective util := by
    intro i j h
    fin_cases i <;> fin_cases j <;> simp_all [util] <;> norm_num at h
  have hs : Function.Injective scores := by
    intro i j h
    fin_cases i <;> fin_cases j <;> simp_all [scores] <;> norm_num at h
  have e : ∀ j, util j = 4 - scores j := by
    intro j
    fin_cases j <;> simp [util, scores] <;> norm_num
  have ho : OppositeOrder util scores := by
    intro j l
    rw [e, e]
    constructor <;> intro h <;> linarith
  refine ⟨ho, ?_, fun σu σs h1 h2 => ?_⟩
  · have hU : avgRank util = util := by
      funext j
      fin_cases j <;> simp [avgRank, util, Fin.sum_univ_three] <;> norm_num
    have hS : avgRank scores = scores := by
      funext j
      fin_cases j <;> simp [avgRank, scores, Fin.sum_univ_three] <;> norm_num
    rw [hU, hS, IsPearson]
    simp only [Fin.sum_univ_three, util, scores, vec_three_two]
    norm_num
  · have a1 : IsArgsort util ![1, 2, 0] := isArgsort_three (by decide) (by simp [util]) (by simp [util]; norm_num)
    have a2 : IsArgsort scores ![0, 2, 1] := isArgsort_three (by decide) (by simp [scores]) (by simp [scores]; norm_num)
    rw [argsort_unique h1 a1 hu, argsort_unique h2 a2 hs, evalSpearman, corrEntry, if_neg (by norm_num)]
    apply npCorr_of_pearson (by norm_num) (nonConstant_desc (by norm_num) a1) (nonConstant_desc (by norm_num) a2)
    have d1 : (fun j : Fin 3 => ((descIdx (![1, 2, 0] : Fin 3 → Fin 3) j).val : ℝ)) = ![0, 2, 1] := by
      funext j
      fin_cases j <;> simp [descIdx, Fin.rev]
    have d2 : (fun j : Fin 3 => ((descIdx (![0, 2, 1] : Fin 3 → Fin 3) j).val : ℝ)) = ![1, 2, 0] := by
      funext j
      fin_cases j <;> simp [descIdx, Fin.rev]
    rw [d1, d2, IsPearson]
    simp only [Fin.sum_univ_three, vec_three_two]
    norm_num

/-- C80 (`pearson`): the correlation of utilities and scores when neither is constant, `nan` otherwise. -/
theorem C80_pearson (util scores : Fin k → ℝ) :
    (2 ≤ k → NonConstant util → NonConstant scores → ∃ r, corrEntry util scores = some r ∧
      IsPearson util scores r) ∧
    (¬ (NonConstant util ∧ NonConstant scores) → corrEntry util scores = none) := by
  refine ⟨fun h hu hs => ⟨_, by rw [corrEntry, if_neg (by omega), npCorr_eq h hu hs], isPearson_uRow hu hs⟩,
    fun h => ?_⟩
  rw [corrEntry]
  split
  · rfl
  · rename_i hk
    exact npCorr_none (by omega) (by tauto)

/-- C80 (`rho`): between `-√2` (excluded) and 0, and 0 exactly when scores and utilities differ by a
constant. -/
theorem C80_rho (hk : 0 < k) (scores util : Fin k → ℝ) :
    -√2 < evalRho scores util ∧ evalRho scores util ≤ 0 ∧
      (evalRho scores util = 0 ↔ ∃ c, ∀ j, scores j = util j + c) := by
  have h : evalRho scores util = -‖sRow scores - sRow util‖ := by
    have := alignRho_eq (M := 2) ![scores, util] 0 1
    simpa [alignRho, evalRho] using this
  rw [h]
  refine ⟨neg_lt_neg (softmax_dist_lt hk _ _), neg_nonpos.2 (norm_nonneg _), ?_⟩
  rw [neg_eq_zero, norm_eq_zero, sub_eq_zero, ← softmaxRow_eq_iff hk]
  constructor
  · intro e
    have := congrArg (fun x => x.ofLp) e
    exact this.symm
  · intro e
    rw [sRow, sRow, e]

/-! ## The whole function -/

section whole
variable {X : Type*} (ord : Finset Nat → List Nat) (fns : EvalFns X)

theorem evalLoop_ok {envs : List (List X × List Nat)} {rows : List EvalRow}
    (h : List.Forall₂ (fun env r => evalEnv ord fns env = .ok r) envs rows) : evalLoop ord fns envs = .ok rows := by
  induction h with
  | nil => rfl
  | cons h _ ih => rw [evalLoop, h, ih]

theorem evalLoop_error {pre post : List (List X × List Nat)} {env : List X × List Nat} {rows : List EvalRow}
    {e : PyErr} (h : List.Forall₂ (fun env r => evalEnv ord fns env = .ok r) pre rows)
    (he : evalEnv ord fns env = .error e) : evalLoop ord fns (pre ++ env :: post) = .error e := by
  induction h with
  | nil => rw [List.nil_append, evalLoop, he]
  | cons h _ ih => rw [List.cons_append, evalLoop, h, ih]

/-- C80 (whole function): the recorded rows are those of the environments in order, the accuracy is the
share of environments whose choice comes first in the order of the utilities, and the average is the mean
rank. Accuracy 1, average 0 and "all ranks 0" are the same. -/
theorem C80_averages {envs : List (List X × List Nat)} {rows : List EvalRow} (hne : envs ≠ [])
    (h : List.Forall₂ (fun env r => evalEnv ord fns env = .ok r) envs rows) :
    ∃ acc avg : ℝ, evaluation ord fns envs = .ok (acc, avg, rows) ∧
      acc * envs.length = (rows.filter fun r => r.rank = 0).length ∧
      avg * envs.length = (rows.map fun r => (r.rank : ℝ)).sum ∧
      0 ≤ acc ∧ acc ≤ 1 ∧ 0 ≤ avg ∧
      (acc = 1 ↔ ∀ r ∈ rows, r.rank = 0) ∧ (avg = 0 ↔ ∀ r ∈ rows, r.rank = 0) := by
  have hl : rows.length = envs.length := h.length_eq.symm
  have hpos : 0 < envs.length := List.length_pos_iff.2 hne
  have hposR : (0 : ℝ) < envs.length := by exact_mod_cast hpos
  have hsum : (((rows.map fun r => r.rank).sum : ℕ) : ℝ) = (rows.map fun r => (r.rank : ℝ)).sum := by
    rw [Nat.cast_list_sum, List.map_map]
    rfl
  have hcount : (rows.countP fun r => r.rank == 0) = (rows.filter fun r => r.rank = 0).length := by
    rw [List.countP_eq_length_filter]
    congr 1
  have hcl : (rows.countP fun r => r.rank == 0) ≤ envs.length := hl ▸ List.countP_le_length
  refine ⟨_, _, by rw [evaluation, evalLoop_ok ord fns h]; simp only [hpos.ne', if_false]; rfl, ?_, ?_, ?_, ?_, ?_, ?_, ?_⟩
  · rw [div_mul_cancel₀ _ hposR.ne', hcount]
  · rw [div_mul_cancel₀ _ hposR.ne', hsum]
  · positivity
  · rw [div_le_one hposR]
    exact_mod_cast hcl
  · positivity
  · rw [div_eq_one_iff_eq hposR.ne', Nat.cast_inj, ← hl, List.countP_eq_length]
    simp
  · rw [div_eq_zero_iff, or_iff_left hposR.ne', Nat.cast_eq_zero, List.sum_eq_zero_iff]
    simp

/-- C80 (whole function), errors: no environment is a division by zero; otherwise the first environment that
raises ends the evaluation with its exception. -/
theorem C80_errors :
    evaluation ord fns [] = .error .zeroDivision ∧
    ∀ (pre post : List (List X × List Nat)) (env : List X × List Nat) (rows : List EvalRow) (e : PyErr),
      List.Forall₂ (fun env r => evalEnv ord fns env = .ok r) pre rows → evalEnv ord fns env = .error e →
      evaluation ord fns (pre ++ env :: post) = .error e := by
  refine ⟨rfl, fun pre post env rows e h he => ?_⟩
  rw [evaluation, evalLoop_error ord fns h he]

end whole

/-! ## Examples -/

/-- The argsorts in the theorems exist: two candidates, the second one better. -/
example : IsArgsort (![1, 2] : Fin 2 → ℝ) id := by
  refine ⟨fun _ _ h => h, Fin.forall_fin_two.2 ⟨Fin.forall_fin_two.2 ⟨?_, ?_⟩, Fin.forall_fin_two.2 ⟨?_, ?_⟩⟩⟩ <;>
    simp

/-- C80_row, C80_rank: the candidate with the lower utility has the higher score; rank and regret are 1. -/
example : ∃ r, evalOne sortedList [0, 1] (![5, 4] : Fin 2 → ℝ) ![1, 2] id id = .ok r ∧ r.rank = 1 := by
  have ho : Enumerates sortedList := by
    intro s i
    simp only [sortedList, List.mem_filter, List.mem_range, decide_eq_true_eq, and_iff_right_iff_imp]
    intro h
    exact Nat.lt_succ_of_le (Finset.le_sup (f := id) h)
  have hu : IsArgsort (![1, 2] : Fin 2 → ℝ) id := by
    refine ⟨fun _ _ h => h, Fin.forall_fin_two.2 ⟨Fin.forall_fin_two.2 ⟨?_, ?_⟩, Fin.forall_fin_two.2 ⟨?_, ?_⟩⟩⟩ <;>
      simp
  have hi : Function.Injective (![1, 2] : Fin 2 → ℝ) := by
    intro i j h
    fin_cases i <;> fin_cases j <;> simp_all
  obtain ⟨r, hr, b, _, _, hmax, _⟩ := C80_row (σs := id) ho (by norm_num) ![5, 4] ![1, 2] hu (pareto := [0, 1])
    (by decide)
  obtain ⟨r', hr', b', hb', hrank, _⟩ := C80_rank (σs := id) ho (by norm_num) ![5, 4] ![1, 2] hu (pareto := [0, 1])
    (by decide) hi
  refine ⟨r', hr', ?_⟩
  obtain rfl : r = r' := by rw [hr] at hr'; exact Except.ok.inj hr'
  have hb0 : b = 0 := by
    have := hmax 0
    fin_cases b
    · rfl
    · norm_num at this
  have : b' = b := Fin.ext (by omega)
  rw [hrank, this, hb0, numBetter]
  have : (univ.filter fun j : Fin 2 => (![1, 2] : Fin 2 → ℝ) 0 < ![1, 2] j) = {1} := by
    ext j
    rw [Finset.mem_filter, Finset.mem_singleton]
    fin_cases j <;> simp
  rw [this]
  rfl

/-- C80_spearman_partial: utilities listed in descending order. -/
example : StrictAnti (![3, 2, 1] : Fin 3 → ℝ) ∧ IsArgsort (![3, 2, 1] : Fin 3 → ℝ) ![2, 1, 0] := by
  refine ⟨fun i j h => ?_, isArgsort_three (by decide) (by simp) (by simp; norm_num)⟩
  fin_cases i <;> fin_cases j <;> first | exact absurd h (by decide) | (simp <;> norm_num)

end Lop.Props
