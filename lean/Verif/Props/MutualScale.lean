import Verif.Model.MutualScale
import Verif.Props.InfoGain
import Mathlib.Tactic.Linarith
import Mathlib.Tactic.FieldSimp

/-! # C86: scaling the sampled utilities with a fake function -/

namespace Lop.Props

open Lop Lop.Spec Finset

variable {M N : Nat}

/-- The mean after multiplying all samples by a number. -/
theorem matMean_mul (w : Fin M → Fin N → ℝ) (c : ℝ) : matMean (fun i j => w i j * c) = matMean w * c := by
  simp only [matMean, ← sum_mul]
  ring

/-- C86: the samples are brought to the scale of the fake function: if their mean is not 0, the mean of the scaled ones is the mean of the fake
function over the candidates, and all entries are multiplied by the same number. -/
theorem C86_mean_partial (f : Fin N → ℝ) (w : Fin M → Fin N → ℝ) (hw : (∑ i, ∑ j, w i j) ≠ 0) :
    ∃ w' c, scaleSamples (some f) w = some w' ∧ (∀ i j, w' i j = c * w i j) ∧
      (∑ i, ∑ j, w' i j) / ((M : ℝ) * N) = (∑ j, f j) / N := by
  have hM : (M : ℝ) ≠ 0 := by
    rintro h
    have : M = 0 := by exact_mod_cast h
    subst this
    simp at hw
  have hN : (N : ℝ) ≠ 0 := by
    rintro h
    have : N = 0 := by exact_mod_cast h
    subst this
    simp at hw
  have hm : matMean w ≠ 0 := div_ne_zero hw (mul_ne_zero hM hN)
  refine ⟨_, vecMean f / matMean w, by rw [scaleSamples]; exact if_neg hm, fun i j => mul_comm _ _, ?_⟩
  have := matMean_mul w (vecMean f / matMean w)
  rw [mul_div_cancel₀ _ hm] at this
  exact this

/-- C86 (order; only if the two means have the same sign): the scaled samples express the same preferences. Missing: means of opposite sign, see
`C86_reversed_counterexample`. -/
theorem C86_order_partial (f : Fin N → ℝ) (w w' : Fin M → Fin N → ℝ) (h : scaleSamples (some f) w = some w')
    (hs : 0 < (∑ j, f j) * ∑ i, ∑ j, w i j) (i : Fin M) (a b : Fin N) : w' i a < w' i b ↔ w i a < w i b := by
  have hN : (0 : ℝ) < N := by exact_mod_cast a.pos
  have hM : (0 : ℝ) < M := by exact_mod_cast i.pos
  rw [scaleSamples] at h
  split_ifs at h with hm
  injection h with h
  subst h
  have hc : 0 < vecMean f / matMean w := by
    rcases pos_and_pos_or_neg_and_neg_of_mul_pos hs with ⟨h1, h2⟩ | ⟨h1, h2⟩
    · exact div_pos (div_pos h1 hN) (div_pos h2 (by positivity))
    · exact div_pos_of_neg_of_neg (div_neg_of_neg_of_pos h1 hN) (div_neg_of_neg_of_pos h2 (by positivity))
  exact mul_lt_mul_iff_left₀ hc

/-- C86 (order) refuted: if the means have opposite signs, every sample is turned round: each expresses the opposite preferences. The mean of samples
of an untrained model has either sign. -/
theorem C86_reversed_counterexample (f : Fin N → ℝ) (w w' : Fin M → Fin N → ℝ) (h : scaleSamples (some f) w = some w')
    (hs : (∑ j, f j) * (∑ i, ∑ j, w i j) < 0) (i : Fin M) (a b : Fin N) : w' i a < w' i b ↔ w i b < w i a := by
  have hN : (0 : ℝ) < N := by exact_mod_cast a.pos
  have hM : (0 : ℝ) < M := by exact_mod_cast i.pos
  rw [scaleSamples] at h
  split_ifs at h with hm
  injection h with h
  subst h
  have hc : vecMean f / matMean w < 0 := by
    rcases mul_neg_iff.1 hs with ⟨h1, h2⟩ | ⟨h1, h2⟩
    · exact div_neg_of_pos_of_neg (div_pos h1 hN) (div_neg_of_neg_of_pos h2 (by positivity))
    · exact div_neg_of_neg_of_pos (div_neg_of_neg_of_pos h1 hN) (div_pos h2 (by positivity))
  exact mul_lt_mul_right_of_neg hc

/-- The choice probabilities for a pair, after turning the samples round, are those of the other candidate. -/
theorem choiceTable_neg_pair (peak : ℝ) (w : Fin M → Fin N → ℝ) (a b : Fin N) (i : Fin M) (j : Fin [a, b].length) :
    choiceTable peak (fun i j => -w i j) [a, b] i j = choiceTable peak w [a, b] i (Fin.rev j) := by
  have h2 : ∀ x y : ℝ, Real.exp (peak * -x) / (Real.exp (peak * -x) + Real.exp (peak * -y)) =
      Real.exp (peak * y) / (Real.exp (peak * x) + Real.exp (peak * y)) := by
    intro x y
    have := Real.exp_pos (peak * x)
    have := Real.exp_pos (peak * y)
    rw [mul_neg, mul_neg, Real.exp_neg, Real.exp_neg]
    field_simp
    ring
  have key : ∀ j : Fin 2, choiceTable peak (fun i j => -w i j) [a, b] i j = choiceTable peak w [a, b] i (Fin.rev j) := by
    refine Fin.forall_fin_two.2 ⟨?_, ?_⟩
    · simpa [choiceTable, boltzmann, Fin.sum_univ_two] using h2 (w i a) (w i b)
    · have := h2 (w i b) (w i a)
      rw [add_comm, add_comm (Real.exp (peak * w i b))] at this
      simpa [choiceTable, boltzmann, Fin.sum_univ_two] using this
  exact key j

/-- C86: for a query of two candidates turning the samples round does not matter: the gain is the same. -/
theorem C86_pair_sign (hM : 0 < M) (peak : ℝ) (w : Fin M → Fin N → ℝ) (a b : Fin N) :
    mutualInfoGain M peak (fun i j => -w i j) [a, b] = mutualInfoGain M peak w [a, b] := by
  rw [mutualInfoGain_eq hM peak _ _ (by simp), mutualInfoGain_eq hM peak w _ (by simp)]
  congr 2
  refine sum_congr rfl fun i _ => ?_
  simp_rw [choiceTable_neg_pair]
  exact Equiv.sum_comp (Fin.revPerm (n := [a, b].length)) fun j => choiceTable peak w [a, b] i j *
    Real.logb 2 (M * choiceTable peak w [a, b] i j / ∑ k, choiceTable peak w [a, b] k j)

/-- C86 refuted for a fake function of mean 0 over the candidates: all samples become 0, every gain is 0 and the first candidate is chosen, whatever
the samples are. -/
theorem C86_zero_counterexample (hM : 0 < M) (peak : ℝ) (f : Fin N → ℝ) (w : Fin M → Fin N → ℝ) (hf : ∑ j, f j = 0)
    (hw : (∑ i, ∑ j, w i j) ≠ 0) (c : Fin N) (rest prev : List (Fin N)) :
    mutualSelect true M peak (some f) w (c :: rest) prev = .ok (c, some 0) := by
  obtain ⟨w', k, h1, h2, h3⟩ := C86_mean_partial f w hw
  have hm : matMean w ≠ 0 := by
    intro h0
    rw [scaleSamples] at h1
    simp [h0] at h1
  have hz : w' = fun _ _ => 0 := by
    rw [scaleSamples] at h1
    simp only [hm, if_false, Option.some.injEq] at h1
    rw [← h1]
    funext i j
    simp [vecMean, hf]
  have hg : ∀ c', mutualInfoGain M peak w' (prev ++ [c']) = .ok 0 := by
    intro c'
    rw [mutualInfoGain_eq hM peak _ _ (by simp), hz]
    have hM' : (M : ℝ) ≠ 0 := by exact_mod_cast hM.ne'
    have hl : (0 : ℝ) < (prev ++ [c']).length := by simp; positivity
    have ht : ∀ i j, choiceTable (M := M) peak (fun _ _ => 0) (prev ++ [c']) i j = 1 / ((prev ++ [c']).length : ℝ) := by
      intro i j
      simp [choiceTable, boltzmann]
    simp only [ht, sum_const, card_univ, Fintype.card_fin, nsmul_eq_mul]
    congr 1
    rw [div_self (by positivity)]
    simp
  obtain ⟨c', g, g1, -, g2, -, before, after, g3, g4⟩ := C55_greedy hM peak w' (c :: rest) prev (by simp)
  have hg0 : g = 0 := by
    rw [hg] at g2
    exact (Except.ok.inj g2).symm
  have hb : before = [] := by
    cases before with
    | nil => rfl
    | cons b bs =>
      obtain ⟨g', h5, h6⟩ := g4 b (by simp)
      rw [hg] at h5
      rw [← Except.ok.inj h5, hg0] at h6
      exact absurd h6 (lt_irrefl _)
  subst hb
  simp only [List.nil_append, List.cons.injEq] at g3
  rw [mutualSelect, if_pos rfl, h1]
  rw [← g3.1] at g1
  simp only [g1, Except.map, hg0]

/-- C86, samples of mean 0: nothing finite is left; no exception is raised, the first candidate is chosen and the metric is `nan`. Without
candidates, or for another kind of model, an exception is raised. -/
theorem C86_nan (peak : ℝ) (f : Fin N → ℝ) (w : Fin M → Fin N → ℝ) (hw : ∑ i, ∑ j, w i j = 0) (prev : List (Fin N)) :
    (∀ c rest, mutualSelect true M peak (some f) w (c :: rest) prev = .ok (c, none)) ∧
    mutualSelect true M peak (some f) w [] prev = .error .valueError ∧
    ∀ fake indicies, mutualSelect false M peak fake w indicies prev = .error .unboundLocal := by
  have hm : matMean w = 0 := by rw [matMean, hw, zero_div]
  refine ⟨fun c rest => ?_, ?_, fun fake indicies => rfl⟩ <;> simp [mutualSelect, scaleSamples, hm, firstCandidate]

/-- C86: without a fake function, or with one of the same sign, the selection is the one of largest gain for the (scaled) samples. -/
theorem C86_select (hM : 0 < M) (peak : ℝ) (fake : Option (Fin N → ℝ)) (w w' : Fin M → Fin N → ℝ)
    (hs : scaleSamples fake w = some w') (indicies prev : List (Fin N)) (hi : indicies ≠ []) :
    ∃ c g, mutualSelect true M peak fake w indicies prev = .ok (c, some g) ∧ c ∈ indicies ∧
      mutualInfoGain M peak w' (prev ++ [c]) = .ok g ∧
      (∀ c' ∈ indicies, ∃ g', mutualInfoGain M peak w' (prev ++ [c']) = .ok g' ∧ g' ≤ g) ∧
      (fake = none → w' = w) := by
  obtain ⟨c, g, g1, g2, g3, g4, -⟩ := C55_greedy hM peak w' indicies prev hi
  refine ⟨c, g, ?_, g2, g3, g4, ?_⟩
  · rw [mutualSelect, if_pos rfl, hs]
    simp only [g1, Except.map]
  · rintro rfl
    simpa [scaleSamples] using hs.symm

/-- Two samples of mean -1 and a fake function of mean 1: the preferences are turned round. -/
example : ∃ w' : Fin 2 → Fin 2 → ℝ, scaleSamples (some ![0, 2]) ![![-1, -3], ![0, 0]] = some w' ∧ w' 0 0 < w' 0 1 ∧
    (![![-1, -3], ![0, 0]] : Fin 2 → Fin 2 → ℝ) 0 1 < (![![-1, -3], ![0, 0]] : Fin 2 → Fin 2 → ℝ) 0 0 := by
  obtain ⟨w', c, h1, -, -⟩ := C86_mean_partial (![0, 2] : Fin 2 → ℝ) (![![-1, -3], ![0, 0]] : Fin 2 → Fin 2 → ℝ)
    (by norm_num [Fin.sum_univ_two])
  have hlt : (![![-1, -3], ![0, 0]] : Fin 2 → Fin 2 → ℝ) 0 1 < (![![-1, -3], ![0, 0]] : Fin 2 → Fin 2 → ℝ) 0 0 := by norm_num
  exact ⟨w', h1, (C86_reversed_counterexample _ _ _ h1 (by norm_num [Fin.sum_univ_two]) 0 0 1).2 hlt, hlt⟩

/-- Samples and a fake function of positive means. -/
example : ∃ w' : Fin 2 → Fin 2 → ℝ, scaleSamples (some ![0, 2]) ![![1, 3], ![0, 0]] = some w' ∧ w' 0 0 < w' 0 1 := by
  obtain ⟨w', c, h1, -, -⟩ := C86_mean_partial (![0, 2] : Fin 2 → ℝ) (![![1, 3], ![0, 0]] : Fin 2 → Fin 2 → ℝ)
    (by norm_num [Fin.sum_univ_two])
  exact ⟨w', h1, (C86_order_partial _ _ _ h1 (by norm_num [Fin.sum_univ_two]) 0 0 1).2 (by norm_num)⟩

end Lop.Props
