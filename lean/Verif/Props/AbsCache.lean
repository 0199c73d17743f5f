import Verif.Props.AbsInfo
import Verif.Model.AbsCache
import Mathlib.Data.Finset.Sort

/-! # C94: the belief `AbsBayesInfo` keeps during a `select` -/

namespace Lop.Props

open Finset Spec

variable {M : Nat}

/-- C94 (one belief): the first call of `select_greedy` of a `select`, with a trained GP or linear model, computes the belief for the candidates it is
given, uses it and keeps it; all later calls use the kept one, whatever model, candidates and indices they are for. -/
theorem C94_belief (kind kind' : BeliefModel) (hk : kind ≠ .other) (rnd rnd' : Nat) (quad : (ℝ → ℝ) → ℝ) (sigma v eps : ℝ)
    (b b' : AbsBelief M) (I I' : List Nat) (s : BeliefCache (AbsBelief M)) (hs : s.first = true) :
    (absCall kind true rnd quad sigma v eps b I s).2 = absInfoGreedy true rnd quad sigma v eps b.F b.pB I ∧
    (absCall kind true rnd quad sigma v eps b I s).1.computed = s.computed + 1 ∧
    absCall kind' true rnd' quad sigma v eps b' I' (absCall kind true rnd quad sigma v eps b I s).1 =
      ((absCall kind true rnd quad sigma v eps b I s).1, absInfoGreedy true rnd' quad sigma v eps b.F b.pB I') := by
  cases kind with
  | other => exact absurd rfl hk
  | gp => simp [absCall, absGetBelief, hs, absComputeBelief, readBelief]
  | linear => simp [absCall, absGetBelief, hs, absComputeBelief, readBelief]

/-- C94 (other models): with a trained model of another class the first call raises `UnboundLocalError` and keeps nothing. -/
theorem C94_other_model (rnd : Nat) (quad : (ℝ → ℝ) → ℝ) (sigma v eps : ℝ) (b : AbsBelief M) (I : List Nat)
    (s : BeliefCache (AbsBelief M)) (hs : s.first = true) :
    absCall .other true rnd quad sigma v eps b I s = (s, .error .unboundLocal) := by
  simp [absCall, absGetBelief, hs, absComputeBelief]

/-- C94 (untrained): without training points the draw does not touch the belief. -/
theorem C94_untrained (kind : BeliefModel) (rnd : Nat) (quad : (ℝ → ℝ) → ℝ) (sigma v eps : ℝ) (b : AbsBelief M) (I : List Nat)
    (hI : I ≠ []) (s : BeliefCache (AbsBelief M)) :
    ∃ i ∈ I, absCall kind false rnd quad sigma v eps b I s = (s, .ok (i, none)) := by
  obtain ⟨i, hi, h⟩ := (C94_no_data rnd quad sigma v eps b.F b.pB I).2.1 hI
  exact ⟨i, hi, by simp [absCall, h]⟩

/-- C94 (later calls), refuted: after a call over `I` chose `i` with a metric, a later call of the same `select` over other candidates
`I'` does not compare their metrics: it takes the one at the position `i` had in `I`, with the metric of `i`, and raises
`IndexError` if there is none. -/
theorem C94_repeated_false (rnd rnd' : Nat) (quad : (ℝ → ℝ) → ℝ) (sigma v eps : ℝ) (b : AbsBelief M) (I : List Nat) (i : Nat)
    (g : ℝ) (h : absInfoGreedy true rnd quad sigma v eps b.F b.pB I = .ok (i, some g)) :
    ∃ k : Nat, I[k]? = some i ∧ ∀ I' : List Nat,
      (∀ j, I'[k]? = some j → absInfoGreedy true rnd' quad sigma v eps b.F b.pB I' = .ok (j, some g)) ∧
      (I'.length ≤ k → absInfoGreedy true rnd' quad sigma v eps b.F b.pB I' = .error .indexError) := by
  unfold absInfoGreedy at h ⊢
  rw [if_pos rfl] at h
  simp only [if_true]
  by_cases h1 : b.pB.length = 1 ∧ b.cols ≠ 1
  · rw [if_pos h1] at h
    cases h
  rw [if_neg h1] at h
  simp only [if_neg h1]
  by_cases h2 : b.pB.length ≠ b.cols
  · rw [if_pos h2] at h
    cases h
  rw [if_neg h2] at h
  simp only [if_neg h2]
  by_cases h3 : ∀ x ∈ b.pB, 0 < x
  · simp only [if_pos h3] at h ⊢
    cases hk : npArgmax ((List.finRange b.cols).map (absInfoGain quad sigma v eps (fun B => b.pB.getD B 0) b.F)) with
    | error e => rw [hk] at h; cases h
    | ok k =>
      rw [hk] at h
      simp only [bind, Except.bind] at h ⊢
      split at h
      · rename_i x y hx hy
        cases h
        refine ⟨k, hx, fun I' => ⟨fun j hj => ?_, fun hl => ?_⟩⟩
        · rw [hj, hy]
        · rw [List.getElem?_eq_none hl]
      · cases h
  · rw [if_neg h3] at h
    split at h <;> cases h

/-- The candidate after `c` among the remaining ones, in increasing order. -/
private theorem sort_erase_at {N c : Nat} (hc : c < N) :
    ((range N).erase c).sort[c]? = if c + 1 < N then some (c + 1) else none := by
  have e : ((range N).erase c).sort = (List.range N).eraseIdx c := by
    refine (sortedLT_sort _).eq_of_mem_iff ?_ ?_
    · exact ((List.sortedLT_range N).pairwise.sublist (List.eraseIdx_sublist _ _)).sortedLT
    · intro a
      rw [Finset.mem_sort, Finset.mem_erase, Finset.mem_range, List.mem_eraseIdx_iff_getElem?]
      constructor
      · rintro ⟨h1, h2⟩
        exact ⟨a, h1, by simp [h2]⟩
      · rintro ⟨j, h1, h2⟩
        rw [List.getElem?_eq_some_iff] at h2
        obtain ⟨h2, h3⟩ := h2
        simp at h2 h3
        omega
  rw [e, List.getElem?_eraseIdx, if_neg (lt_irrefl _)]
  split
  · rename_i h
    rw [List.getElem?_range h]
  · rename_i h
    rw [List.getElem?_eq_none]
    simpa using h

/-- C94 (`return_not_selected`), refuted: let the candidate `c` with the lowest value in every sample not be preferred. `select` with
`return_not_selected` then skips it and next takes candidate `c + 1`, whatever the metrics of the preferred ones, if that is
preferred; if `c` is the last candidate it raises `IndexError`, although there is a preferred candidate. -/
theorem C94_not_selected_false (hM : 0 < M) {sigma v eps : ℝ} (hs : 0 < sigma) (hv : 0 < v) (he : 0 < eps)
    (he' : eps < 1 / 2) (b : AbsBelief M) (hp : ∀ x ∈ b.pB, 0 < x) (hlen : b.pB.length = b.cols) (c : Fin b.cols)
    (hlow : ∀ c', c' ≠ c → ∀ w, meanLink sigma eps (b.F w c) < meanLink sigma eps (b.F w c'))
    (mu : List ℝ) (hmu : mu.length = b.cols) (prefer : Finset Nat) (hsub : prefer ⊆ range b.cols) (hne : prefer.Nonempty) (hc : c.val ∉ prefer)
    (pairFirst : Bool) (n fuel : Nat) (hn : 0 < n) :
    (c.val + 1 = b.cols →
      learnerSelectRet (absInfoLearner (fun s => s.sort) exactQuad sigma v eps b) false pairFirst (some 1) (fun s => s.sort) mu n prefer ∅
        (fuel + 2) = some (.error .indexError)) ∧
    (c.val + 1 ∈ prefer → c.val + 1 < b.cols →
      learnerSelectRet (absInfoLearner (fun s => s.sort) exactQuad sigma v eps b) false pairFirst (some 1) (fun s => s.sort) mu n prefer ∅
        (fuel + 3) = some (.ok ([c.val + 1], [c.val]))) := by
  obtain ⟨g, hg, -⟩ := C94_selects_worst hM hs hv he he' b.pB hp hlen b.F c hlow 0
  obtain ⟨k, hk, hnext⟩ := C94_repeated_false 0 0 exactQuad sigma v eps b _ _ _ hg
  have hkc : k = c.val := by
    rw [List.getElem?_eq_some_iff] at hk
    obtain ⟨_, h⟩ := hk
    simpa using h
  subst hkc
  have hcN := c.2
  have hcols : b.cols ≠ 0 := by omega
  have hsr : (range b.cols).sort = List.range b.cols := sort_range b.cols
  have h1 : effAlts (some 1) n = 1 := by simp [effAlts]; omega
  have hne' : prefer ≠ ∅ := hne.ne_empty
  have ha : ((range mu.length \ ∅) \ ([] : List Nat).toFinset) = range b.cols := by rw [hmu]; simp
  have hr : (range b.cols) ≠ ∅ := by simpa using hcols
  have hstep : ∀ t, retStep (absInfoLearner (fun s => s.sort) exactQuad sigma v eps b) pairFirst 1 ∅ t
      ⟨[], [], prefer, range b.cols⟩ = .ok ⟨[], [c.val], prefer, (range b.cols).erase c.val⟩ := by
    intro t
    simp [retStep, absInfoLearner, hsr, hg, Except.map, retPlace, hc, hne']
  have hsel : learnerSelectRet (absInfoLearner (fun s => s.sort) exactQuad sigma v eps b) false pairFirst (some 1)
      (fun s => s.sort) mu n prefer ∅ = fun f => retLoop (absInfoLearner (fun s => s.sort) exactQuad sigma v eps b) pairFirst 1 ∅ f 0
        ⟨[], [], prefer, range b.cols⟩ := by
    funext f
    simp only [learnerSelectRet, startSelection, h1, sdiff_empty, Bool.false_eq_true, false_and, if_false]
    rw [← ha]
    simp
  rw [hsel]
  have hlt : (([] : List Nat).length < 1 ∧ range b.cols ≠ ∅) := ⟨by simp, hr⟩
  constructor
  · intro hlast
    obtain ⟨p, hp'⟩ := hne
    have hpc : p ≠ c.val := fun h => hc (h ▸ hp')
    have hlt2 : (([] : List Nat).length < 1 ∧ (range b.cols).erase c.val ≠ ∅) :=
      ⟨by simp, Finset.Nonempty.ne_empty ⟨p, Finset.mem_erase.2 ⟨hpc, hsub hp'⟩⟩⟩
    have hsl : ((range b.cols).erase c.val).sort.length ≤ c.val := by
      rw [length_sort, card_erase_of_mem (by simp), card_range]
      omega
    have herr := (hnext ((range b.cols).erase c.val).sort).2 hsl
    have hstep2 : ∀ t, retStep (absInfoLearner (fun s => s.sort) exactQuad sigma v eps b) pairFirst 1 ∅ t
        ⟨[], [c.val], prefer, (range b.cols).erase c.val⟩ = .error .indexError := by
      intro t
      simp [retStep, absInfoLearner, herr, Except.map, hne']
    beta_reduce
    rw [retLoop, if_pos hlt, hstep]
    dsimp only
    rw [retLoop, if_pos hlt2, hstep2]
  · intro hpref hc1
    have herr := (hnext ((range b.cols).erase c.val).sort).1 (c.val + 1) (by rw [sort_erase_at hcN, if_pos hc1])
    have hstep2 : ∀ t, retStep (absInfoLearner (fun s => s.sort) exactQuad sigma v eps b) pairFirst 1 ∅ t
        ⟨[], [c.val], prefer, (range b.cols).erase c.val⟩ =
        .ok ⟨[c.val + 1], [c.val], prefer.erase (c.val + 1), ((range b.cols).erase c.val).erase (c.val + 1)⟩ := by
      intro t
      simp [retStep, absInfoLearner, herr, Except.map, retPlace, hpref, hne']
    have hlt2 : (([] : List Nat).length < 1 ∧ (range b.cols).erase c.val ≠ ∅) := by
      refine ⟨by simp, Finset.Nonempty.ne_empty ⟨c.val + 1, ?_⟩⟩
      simp [hc1]
    beta_reduce
    rw [retLoop, if_pos hlt, hstep]
    dsimp only
    rw [retLoop, if_pos hlt2, hstep2]
    dsimp only
    rw [retLoop, if_neg (by simp), if_neg (by simp)]

/-- A belief meeting the hypotheses of `C94_not_selected_false`: one sample, two candidates, the second (or the first) is the lower one and the other
is preferred. -/
example (last : Bool) : ∃ (b : AbsBelief 1) (c : Fin b.cols) (sigma eps : ℝ) (prefer : Finset Nat), 0 < sigma ∧ 0 < eps ∧ eps < 1 / 2 ∧
    (∀ x ∈ b.pB, 0 < x) ∧ b.pB.length = b.cols ∧
    (∀ c', c' ≠ c → ∀ w, meanLink sigma eps (b.F w c) < meanLink sigma eps (b.F w c')) ∧
    prefer ⊆ range b.cols ∧ prefer.Nonempty ∧ c.val ∉ prefer ∧
    (if last then c.val + 1 = b.cols else c.val + 1 ∈ prefer ∧ c.val + 1 < b.cols) := by
  have key : ∀ c : Fin 2, ∀ c', c' ≠ c → meanLink 1 (1 / 4) (if c = c then (-2 : ℝ) else 0) <
      meanLink 1 (1 / 4) (if c' = c then (-2 : ℝ) else 0) := by
    intro c c' hc
    have h0 : stdNormCdf 0 = 1 / 2 := by rw [stdNormCdf_of_mem (by norm_num) (by norm_num), Phi_zero]
    have hi : 0 < isqrt2sig 1 := by unfold isqrt2sig; positivity
    have hi1 : isqrt2sig 1 ≤ 1 := by
      unfold isqrt2sig
      rw [one_mul, div_le_one (by positivity)]
      exact Real.one_le_sqrt.2 one_le_two
    have hlt : stdNormCdf (-2 * isqrt2sig 1) < 1 / 2 := by
      rw [stdNormCdf_of_mem (by linarith) (by linarith), ← Phi_zero]
      exact Phi_strictMono (by linarith)
    simp only [if_neg hc, if_true, meanLink, npClip, zero_mul, h0]
    rw [max_eq_left (by norm_num : (1 / 4 : ℝ) ≤ 1 / 2), min_eq_left (by norm_num : (1 / 2 : ℝ) ≤ 1 - 1 / 4)]
    exact lt_of_le_of_lt (min_le_left _ _) (max_lt hlt (by norm_num))
  cases last with
  | true =>
    exact ⟨⟨2, fun _ c' => if c' = (1 : Fin 2) then -2 else 0, [1 / 2, 1 / 2]⟩, (1 : Fin 2), 1, 1 / 4, {0}, by norm_num, by norm_num,
      by norm_num, by simp, rfl, fun c' hc _ => key 1 c' hc, by simp, by simp, by simp, by simp⟩
  | false =>
    exact ⟨⟨2, fun _ c' => if c' = (0 : Fin 2) then -2 else 0, [1 / 2, 1 / 2]⟩, (0 : Fin 2), 1, 1 / 4, {1}, by norm_num, by norm_num,
      by norm_num, by simp, rfl, fun c' hc _ => key 0 c' hc, by simp, by simp, by simp, by simp⟩

end Lop.Props
