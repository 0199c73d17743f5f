import Verif.Proofs.AbsInfo

/-! # C94: the rating query chosen by `AbsBayesInfo` -/

namespace Lop.Props

open Finset MeasureTheory ProbabilityTheory Spec

variable {M N : Nat}

/-- C94 (closed form): with exact integrals the value of candidate `c` is the mean, over the samples and the best
candidate, of minus the logarithm of the probability that the rating of `c` exceeds the mean rating of the best
candidate. -/
theorem C94_metric (hM : 0 < M) {sigma v eps : ℝ} (hv : 0 < v) (he : 0 < eps) (he' : eps < 1 / 2)
    (pB : Fin N → ℝ) (hp : ∀ B, 0 < pB B) (F : Fin M → Fin N → ℝ) (c : Fin N) :
    absInfoGain exactQuad sigma v eps pB F c =
      ∑ B, pB B * ((∑ w, -Real.log (ratingAbove (v * meanLink sigma eps (F w c))
        (v - v * meanLink sigma eps (F w c)) (meanLink sigma eps (F w B)))) / M) := by
  have hM' : (M : ℝ) ≠ 0 := by exact_mod_cast hM.ne'
  have hcell : ∀ w B, absInfoCell exactQuad (alphaBeta sigma v eps (F w c)) (meanLink sigma eps (F w B)) (pB B) =
      Real.log (pB B) - Real.log (ratingAbove (v * meanLink sigma eps (F w c))
        (v - v * meanLink sigma eps (F w c)) (meanLink sigma eps (F w B))) := by
    intro w B
    have hab := alphaBeta_pos hv he he' sigma (F w c)
    have hm := meanLink_mem (sigma := sigma) he he' (F w B)
    exact absInfoCell_eq hab.1 hab.2 hm.1 hm.2 (hp B)
  unfold absInfoGain
  simp only [hcell]
  rw [← sum_sub_distrib]
  refine sum_congr rfl fun B _ => ?_
  rw [sum_sub_distrib, sum_neg_distrib]
  simp only [sum_const, card_univ, Fintype.card_fin, nsmul_eq_mul]
  field_simp
  ring

/-- C94 (sign): the value of every candidate is positive. -/
theorem C94_positive (hM : 0 < M) {sigma v eps : ℝ} (hv : 0 < v) (he : 0 < eps) (he' : eps < 1 / 2)
    (pB : Fin N → ℝ) (hp : ∀ B, 0 < pB B) (F : Fin M → Fin N → ℝ) (c : Fin N) :
    0 < absInfoGain exactQuad sigma v eps pB F c := by
  rw [C94_metric hM hv he he' pB hp F c]
  haveI : Nonempty (Fin M) := ⟨⟨0, hM⟩⟩
  have hM' : (0 : ℝ) < M := by exact_mod_cast hM
  refine sum_pos (fun B _ => mul_pos (hp B) (div_pos (sum_pos (fun w _ => ?_) univ_nonempty) hM')) ⟨c, mem_univ c⟩
  have hab := alphaBeta_pos hv he he' sigma (F w c)
  have hm := meanLink_mem (sigma := sigma) he he' (F w B)
  have h1 : 0 < ratingAbove (v * meanLink sigma eps (F w c)) (v - v * meanLink sigma eps (F w c)) _ :=
    ratingAbove_pos hab.1 hab.2 hm.1 hm.2
  have h2 : ratingAbove (v * meanLink sigma eps (F w c)) (v - v * meanLink sigma eps (F w c)) _ < 1 :=
    ratingAbove_lt_one hab.1 hab.2 hm.1 hm.2
  have := Real.log_neg h1 h2
  linarith

/-- C94 (order): a candidate whose value is nowhere above that of another never has the smaller metric; with a smaller mean
rating in every sample its metric is larger. -/
theorem C94_prefers_low (hM : 0 < M) {sigma v eps : ℝ} (hs : 0 < sigma) (hv : 0 < v) (he : 0 < eps)
    (he' : eps < 1 / 2) (pB : Fin N → ℝ) (hp : ∀ B, 0 < pB B) (F : Fin M → Fin N → ℝ) (c c' : Fin N)
    (hle : ∀ w, F w c ≤ F w c') :
    absInfoGain exactQuad sigma v eps pB F c' ≤ absInfoGain exactQuad sigma v eps pB F c ∧
      ((∃ w, meanLink sigma eps (F w c) < meanLink sigma eps (F w c')) →
        absInfoGain exactQuad sigma v eps pB F c' < absInfoGain exactQuad sigma v eps pB F c) := by
  have hM' : (0 : ℝ) < M := by exact_mod_cast hM
  have hlt : ∀ w B, meanLink sigma eps (F w c) < meanLink sigma eps (F w c') →
      -Real.log (ratingAbove (v * meanLink sigma eps (F w c')) (v - v * meanLink sigma eps (F w c'))
          (meanLink sigma eps (F w B))) <
        -Real.log (ratingAbove (v * meanLink sigma eps (F w c)) (v - v * meanLink sigma eps (F w c))
          (meanLink sigma eps (F w B))) := by
    intro w B h
    have hab := alphaBeta_pos hv he he' sigma (F w c)
    have hab' := alphaBeta_pos hv he he' sigma (F w c')
    have hm := meanLink_mem (sigma := sigma) he he' (F w B)
    have h1 := mul_lt_mul_of_pos_left h hv
    exact neg_lt_neg (Real.log_lt_log (ratingAbove_pos hab.1 hab.2 hm.1 hm.2)
      (ratingAbove_strict hab.1 hab.2 hab'.1 hab'.2 h1 (by linarith) hm.1 hm.2))
  have hcell : ∀ w B,
      -Real.log (ratingAbove (v * meanLink sigma eps (F w c')) (v - v * meanLink sigma eps (F w c'))
          (meanLink sigma eps (F w B))) ≤
        -Real.log (ratingAbove (v * meanLink sigma eps (F w c)) (v - v * meanLink sigma eps (F w c))
          (meanLink sigma eps (F w B))) := by
    intro w B
    rcases (meanLink_mono (eps := eps) hs (hle w)).lt_or_eq with h | h
    · exact (hlt w B h).le
    · rw [h]
  rw [C94_metric hM hv he he' pB hp F c, C94_metric hM hv he he' pB hp F c']
  constructor
  · refine sum_le_sum fun B _ => mul_le_mul_of_nonneg_left ?_ (hp B).le
    exact div_le_div_of_nonneg_right (sum_le_sum fun w _ => hcell w B) hM'.le
  · rintro ⟨w0, hw0⟩
    refine sum_lt_sum_of_nonempty ⟨c, mem_univ c⟩ fun B _ => mul_lt_mul_of_pos_left ?_ (hp B)
    exact div_lt_div_of_pos_right (sum_lt_sum (fun w _ => hcell w B) ⟨w0, mem_univ _, hlt w0 B hw0⟩) hM'

/-- C94 (what is selected): if one candidate has the lowest value in every sample, its mean rating being the lowest by more
than the clipping, then `select_greedy` over all candidates selects it, with its metric. -/
theorem C94_selects_worst (hM : 0 < M) {sigma v eps : ℝ} (hs : 0 < sigma) (hv : 0 < v) (he : 0 < eps)
    (he' : eps < 1 / 2) (pB : List ℝ) (hp : ∀ b ∈ pB, 0 < b) (hlen : pB.length = N) (F : Fin M → Fin N → ℝ)
    (c : Fin N) (hlow : ∀ c', c' ≠ c → ∀ w, meanLink sigma eps (F w c) < meanLink sigma eps (F w c')) (rnd : Nat) :
    ∃ g, absInfoGreedy true rnd exactQuad sigma v eps F pB (List.range N) = .ok (c.val, some g) ∧ 0 < g := by
  have hp' : ∀ B : Fin N, 0 < pB.getD B 0 := by
    intro B
    have hB : B.val < pB.length := hlen ▸ B.2
    rw [List.getD_eq_getElem?_getD, List.getElem?_eq_getElem hB]
    exact hp _ (List.getElem_mem hB)
  set G := absInfoGain exactQuad sigma v eps (fun B : Fin N => pB.getD B 0) F with hG
  have hbest : ∀ c', c' ≠ c → G c' < G c := by
    intro c' hc
    have hlt := hlow c' hc
    refine (C94_prefers_low hM hs hv he he' _ hp' F c c' ?_).2 ⟨⟨0, hM⟩, hlt _⟩
    intro w
    by_contra hcon
    exact absurd (meanLink_mono (eps := eps) hs (not_le.1 hcon).le) (not_le.2 (hlt w))
  have hne : (List.finRange N).map G ≠ [] := by
    intro h
    have := congrArg List.length h
    simp at this
    exact absurd c.2 (by omega)
  obtain ⟨k, hk⟩ := npArgmax_isOk hne
  obtain ⟨x, hx, hmax, _⟩ := npArgmax_spec hk
  have hkN : k < N := by
    have := (List.getElem?_eq_some_iff.1 hx).1
    simpa using this
  have hxk : x = G ⟨k, hkN⟩ := by
    rw [List.getElem?_map, List.getElem?_eq_getElem (by simpa using hkN)] at hx
    simpa using hx.symm
  have hkc : k = c.val := by
    by_contra hne'
    have h1 := hbest ⟨k, hkN⟩ (fun h => hne' (congrArg Fin.val h))
    have h2 : G c ≤ x := hmax _ (List.mem_map.2 ⟨c, List.mem_finRange c, rfl⟩)
    rw [hxk] at h2
    exact absurd h1 (not_lt.2 h2)
  have h1 : ¬ (pB.length = 1 ∧ N ≠ 1) := by omega
  refine ⟨x, ?_, ?_⟩
  · unfold absInfoGreedy
    rw [if_pos rfl, if_neg h1, if_neg (by omega), if_pos hp, ← hG]
    simp only [hk, bind, Except.bind]
    rw [hx, List.getElem?_range hkN, hkc]
  · rw [hxk]
    exact C94_positive hM hv he he' _ hp' F _

/-- C94 (information): the metric is never below the mutual information between the best candidate and the rating,
averaged over the samples (the rating given that `B` is the best being distributed as the code has it: the beta
distribution of the rated candidate above the mean rating of `B`), which is never negative. -/
theorem C94_information (hM : 0 < M) {sigma v eps : ℝ} (hv : 0 < v) (he : 0 < eps) (he' : eps < 1 / 2)
    (pB : Fin N → ℝ) (hp : ∀ B, 0 < pB B) (hsum : ∑ B, pB B = 1) (F : Fin M → Fin N → ℝ) (c : Fin N) :
    0 ≤ (∑ w, ratingInformation (v * meanLink sigma eps (F w c)) (v - v * meanLink sigma eps (F w c)) pB
      (fun B => meanLink sigma eps (F w B))) / M ∧
    (∑ w, ratingInformation (v * meanLink sigma eps (F w c)) (v - v * meanLink sigma eps (F w c)) pB
      (fun B => meanLink sigma eps (F w B))) / M ≤ absInfoGain exactQuad sigma v eps pB F c := by
  have hM' : (0 : ℝ) < M := by exact_mod_cast hM
  have hb : ∀ w, 0 ≤ ratingInformation (v * meanLink sigma eps (F w c)) (v - v * meanLink sigma eps (F w c)) pB
      (fun B => meanLink sigma eps (F w B)) ∧
      ratingInformation (v * meanLink sigma eps (F w c)) (v - v * meanLink sigma eps (F w c)) pB
      (fun B => meanLink sigma eps (F w B)) ≤ ∑ B, pB B * -Real.log (ratingAbove (v * meanLink sigma eps (F w c))
        (v - v * meanLink sigma eps (F w c)) (meanLink sigma eps (F w B))) := by
    intro w
    have hab := alphaBeta_pos hv he he' sigma (F w c)
    exact ratingInformation_bounds hab.1 hab.2 hp hsum _ fun B => meanLink_mem he he' _
  rw [C94_metric hM hv he he' pB hp F c]
  refine ⟨div_nonneg (sum_nonneg fun w _ => (hb w).1) hM'.le, ?_⟩
  have e : ∑ B, pB B * ((∑ w, -Real.log (ratingAbove (v * meanLink sigma eps (F w c))
        (v - v * meanLink sigma eps (F w c)) (meanLink sigma eps (F w B)))) / M) =
      (∑ w, ∑ B, pB B * -Real.log (ratingAbove (v * meanLink sigma eps (F w c))
        (v - v * meanLink sigma eps (F w c)) (meanLink sigma eps (F w B)))) / M := by
    rw [sum_comm, sum_div]
    refine sum_congr rfl fun B _ => ?_
    rw [← mul_sum]
    ring
  rw [e]
  exact div_le_div_of_nonneg_right (sum_le_sum fun w _ => (hb w).2) hM'.le

/-- C94 (information), refuted: the metric is not the information. If in every sample all candidates have the same value,
no rating says anything about which is the best, and still the metric of every candidate is positive. -/
theorem C94_information_false (hM : 0 < M) {sigma v eps : ℝ} (hv : 0 < v) (he : 0 < eps) (he' : eps < 1 / 2)
    (pB : Fin N → ℝ) (hp : ∀ B, 0 < pB B) (hsum : ∑ B, pB B = 1) (u : Fin M → ℝ) (c : Fin N) :
    (∀ w, ratingInformation (v * meanLink sigma eps (u w)) (v - v * meanLink sigma eps (u w)) pB
      (fun _ => meanLink sigma eps (u w)) = 0) ∧
    0 < absInfoGain exactQuad sigma v eps pB (fun w _ => u w) c :=
  ⟨fun w => ratingInformation_const hsum _ _ _, C94_positive hM hv he he' pB hp _ c⟩

/-- C94 (shapes): with a GP model, whose samples have one column for every candidate, a call for only some of the
candidates (at least two) raises `ValueError`. -/
theorem C94_subset_false (rnd : Nat) (quad : (ℝ → ℝ) → ℝ) (sigma v eps : ℝ) (F : Fin M → Fin N → ℝ) (pB : List ℝ)
    (indicies : List Nat) (h : pB.length = indicies.length) (h1 : 1 < indicies.length) (h2 : indicies.length < N) :
    absInfoGreedy true rnd quad sigma v eps F pB indicies = .error .valueError := by
  unfold absInfoGreedy
  rw [if_pos rfl, if_neg (by omega), if_pos (by omega)]

/-- C94 (no data): without training points the candidate is a random one of those offered; none offered is a
`ValueError`. -/
theorem C94_no_data (rnd : Nat) (quad : (ℝ → ℝ) → ℝ) (sigma v eps : ℝ) (F : Fin M → Fin N → ℝ) (pB : List ℝ)
    (indicies : List Nat) :
    (indicies = [] → absInfoGreedy false rnd quad sigma v eps F pB indicies = .error .valueError) ∧
      (indicies ≠ [] → ∃ i ∈ indicies, absInfoGreedy false rnd quad sigma v eps F pB indicies = .ok (i, none)) ∧
      ∀ i ∈ indicies, ∃ r, absInfoGreedy false r quad sigma v eps F pB indicies = .ok (i, none) := by
  have hf : ¬ (false = true) := by simp
  refine ⟨?_, ?_, ?_⟩
  · rintro rfl
    rfl
  · intro hne
    have hl := List.length_pos_of_ne_nil hne
    have hr := Nat.mod_lt rnd hl
    refine ⟨indicies[rnd % indicies.length], List.getElem_mem hr, ?_⟩
    unfold absInfoGreedy
    rw [if_neg hf, List.getElem?_eq_getElem hr]
  · intro i hi
    obtain ⟨k, hk, rfl⟩ := List.mem_iff_getElem.1 hi
    refine ⟨k, ?_⟩
    unfold absInfoGreedy
    rw [if_neg hf, Nat.mod_eq_of_lt hk, List.getElem?_eq_getElem hk]

/-- C94 (impossible best candidates): if some candidate has probability 0 of being the best, the first index is selected,
with metric `nan`. -/
theorem C94_zero_probability_false (rnd : Nat) (quad : (ℝ → ℝ) → ℝ) (sigma v eps : ℝ) (F : Fin M → Fin N → ℝ)
    (pB : List ℝ) (hlen : pB.length = N) (i : Nat) (l : List Nat) (h : ∃ b ∈ pB, b ≤ 0) :
    absInfoGreedy true rnd quad sigma v eps F pB (i :: l) = .ok (i, none) := by
  unfold absInfoGreedy
  rw [if_pos rfl, if_neg (by omega), if_neg (by omega), if_neg]
  · rfl
  · intro hall
    obtain ⟨b, hb, hb'⟩ := h
    exact absurd (hall b hb) (not_lt.2 hb')

/-- The hypotheses of the theorems above can be met: one sample, two candidates. -/
example : ∃ (F : Fin 1 → Fin 2 → ℝ) (sigma eps : ℝ), 0 < sigma ∧ 0 < eps ∧ eps < 1 / 2 ∧
    ∀ c', c' ≠ (0 : Fin 2) → ∀ w, meanLink sigma eps (F w 0) < meanLink sigma eps (F w c') := by
  refine ⟨fun _ c => if c = 0 then -2 else 0, 1, 1 / 4, by norm_num, by norm_num, by norm_num, ?_⟩
  intro c' hc w
  have h0 : stdNormCdf 0 = 1 / 2 := by rw [stdNormCdf_of_mem (by norm_num) (by norm_num), Phi_zero]
  have hi : 0 < isqrt2sig 1 := by unfold isqrt2sig; positivity
  have hi1 : isqrt2sig 1 ≤ 1 := by
    unfold isqrt2sig
    rw [one_mul, div_le_one (by positivity)]
    exact Real.one_le_sqrt.2 one_le_two
  have hlt : stdNormCdf (-2 * isqrt2sig 1) < 1 / 2 := by
    rw [stdNormCdf_of_mem (by linarith) (by linarith), ← Phi_zero]
    exact Phi_strictMono (by linarith)
  simp only [if_neg hc, if_true, meanLink, npClip, zero_mul, h0]
  rw [max_eq_left (by norm_num : (1 / 4 : ℝ) ≤ 1 / 2), min_eq_left (by norm_num : (1 / 2 : ℝ) ≤ 1 - 1 / 4)]
  exact lt_of_le_of_lt (min_le_left _ _) (max_lt hlt (by norm_num))

end Lop.Props
