import Verif.Proofs.InfoGain
import Verif.Proofs.Basic
import Verif.Props.Sampling
import Mathlib.Analysis.SpecialFunctions.BinaryEntropy
import Mathlib.Analysis.Complex.ExponentialBounds
import Mathlib.Data.Fin.VecNotation
import Mathlib.Tactic.NormNum

/-! # C55, C56: information gain -/

namespace Lop.Props

open Lop Lop.Spec Finset

section C55

variable {M N : Nat}

/-- The choice probabilities of the samples for a query. -/
noncomputable def choiceTable (peak : ℝ) (w : Fin M → Fin N → ℝ) (Q : List (Fin N)) :
    Fin M → Fin Q.length → ℝ :=
  fun i => boltzmann (fun j => w i Q[j]) peak

theorem choiceTable_pos (peak : ℝ) (w : Fin M → Fin N → ℝ) (Q : List (Fin N)) (i : Fin M)
    (j : Fin Q.length) : 0 < choiceTable peak w Q i j :=
  div_pos (Real.exp_pos _) (softmax_denom_pos _ _ j)

theorem choiceTable_sum (peak : ℝ) (w : Fin M → Fin N → ℝ) (Q : List (Fin N)) (hQ : Q ≠ []) (i : Fin M) :
    ∑ j, choiceTable peak w Q i j = 1 := by
  unfold choiceTable boltzmann
  rw [← sum_div]
  exact div_self (softmax_denom_pos _ _ ⟨0, List.length_pos_iff.2 hQ⟩).ne'

theorem mutualInfoGain_eq (hM : 0 < M) (peak : ℝ) (w : Fin M → Fin N → ℝ) (Q : List (Fin N))
    (hQ : Q ≠ []) :
    mutualInfoGain M peak w Q = .ok ((∑ i, ∑ j, choiceTable peak w Q i j *
      Real.logb 2 (M * choiceTable peak w Q i j / ∑ k, choiceTable peak w Q k j)) / M) := by
  unfold mutualInfoGain
  rw [C11_softmax_rows_independent hM (List.length_pos_iff.2 hQ)]
  rfl

theorem gain_raw {M n : Nat} (p : Fin M → Fin n → ℝ) :
    (∑ i, ∑ j, p i j * Real.logb 2 (M * p i j / ∑ k, p k j)) / M = rawGain p / (M * Real.log 2) := by
  unfold rawGain
  simp_rw [Real.logb, mul_div_assoc', ← sum_div]
  rw [div_div, mul_comm (Real.log 2)]

/-- C55: the computed value is the mutual information (in bits) between the answer and the utility
sample: the entropy of the average answer distribution minus the average entropy. -/
theorem C55_is_mutual_information (hM : 0 < M) (peak : ℝ) (w : Fin M → Fin N → ℝ) (Q : List (Fin N))
    (hQ : Q ≠ []) :
    mutualInfoGain M peak w Q = .ok (mutualInfo2 fun i => boltzmann (fun j : Fin Q.length => w i Q[j]) peak) := by
  rw [mutualInfoGain_eq hM peak w Q hQ, mutualInfo2_eq hM (choiceTable_pos peak w Q)]
  rfl

/-- C55: it lies between 0 and log2 of the query size. -/
theorem C55_bounds (hM : 0 < M) (peak : ℝ) (w : Fin M → Fin N → ℝ) (Q : List (Fin N)) (hQ : Q ≠ []) :
    ∃ g, mutualInfoGain M peak w Q = .ok g ∧ 0 ≤ g ∧ g ≤ Real.logb 2 Q.length := by
  refine ⟨_, mutualInfoGain_eq hM peak w Q hQ, ?_, ?_⟩
  · rw [gain_raw]
    have := rawGain_nonneg hM (choiceTable_pos peak w Q)
    positivity
  · rw [gain_raw]
    have hM' : (0 : ℝ) < M := by exact_mod_cast hM
    have hl : 0 < Real.log 2 := Real.log_pos (by norm_num)
    have := rawGain_le hM (List.length_pos_iff.2 hQ) (choiceTable_pos peak w Q)
      (choiceTable_sum peak w Q hQ)
    rw [Real.logb, div_le_div_iff₀ (by positivity) hl]
    nlinarith [mul_le_mul_of_nonneg_right this hl.le]

/-- C55: it is 0 exactly when the samples agree on all utility differences inside the query (for a
non-zero peakiness), that is when every sample gives the same choice probabilities. -/
theorem C55_zero_iff (hM : 0 < M) (peak : ℝ) (hp : peak ≠ 0) (w : Fin M → Fin N → ℝ) (Q : List (Fin N))
    (hQ : Q ≠ []) :
    mutualInfoGain M peak w Q = .ok 0 ↔
      ∀ i k, ∀ a ∈ Q, ∀ b ∈ Q, w i a - w i b = w k a - w k b := by
  rw [mutualInfoGain_eq hM peak w Q hQ, gain_raw]
  have hM' : (M : ℝ) ≠ 0 := by exact_mod_cast hM.ne'
  have hl : Real.log 2 ≠ 0 := (Real.log_pos (by norm_num)).ne'
  rw [Except.ok.injEq, div_eq_zero_iff, or_iff_left (mul_ne_zero hM' hl),
    rawGain_zero_iff hM (choiceTable_pos peak w Q)]
  constructor
  · intro h i k a ha b hb
    obtain ⟨ja, hja, rfl⟩ := List.getElem_of_mem ha
    obtain ⟨jb, hjb, rfl⟩ := List.getElem_of_mem hb
    have := (boltzmann_eq_iff (List.length_pos_iff.2 hQ) (fun j : Fin Q.length => w i Q[j])
      (fun j => w k Q[j]) hp).1 (funext fun j => h i k j)
    exact this ⟨ja, hja⟩ ⟨jb, hjb⟩
  · intro h i k j
    exact congrFun ((boltzmann_eq_iff (List.length_pos_iff.2 hQ) (fun j : Fin Q.length => w i Q[j])
      (fun j => w k Q[j]) hp).2 fun a b => h i k _ (List.getElem_mem _) _ (List.getElem_mem _)) j

/-- C55, error branch: no samples or an empty query raise. -/
theorem C55_empty (M' : Nat) (peak : ℝ) (w : Fin 0 → Fin N → ℝ) (w' : Fin M → Fin N → ℝ) (Q : List (Fin N)) :
    mutualInfoGain M' peak w Q = .error .valueError ∧
    mutualInfoGain M' peak w' [] = .error .valueError := by
  constructor <;>
  · unfold mutualInfoGain pHumanChoice2
    rw [dif_neg]
    · rfl
    · rintro ⟨⟨i, j⟩, -⟩
      first | exact i.elim0 | exact j.elim0

/-- C55: it is also at most log2 of the number of samples: the answer cannot tell more than which sample is
the true one. -/
theorem C55_le_samples (hM : 0 < M) (peak : ℝ) (w : Fin M → Fin N → ℝ) (Q : List (Fin N)) (hQ : Q ≠ []) :
    ∃ g, mutualInfoGain M peak w Q = .ok g ∧ g ≤ Real.logb 2 M := by
  refine ⟨_, mutualInfoGain_eq hM peak w Q hQ, ?_⟩
  have hM' : (0 : ℝ) < M := by exact_mod_cast hM
  rw [div_le_iff₀ hM']
  calc _ ≤ ∑ i, ∑ j, choiceTable peak w Q i j * Real.logb 2 M := by
        refine sum_le_sum fun i _ => sum_le_sum fun j _ => ?_
        have hp := choiceTable_pos peak w Q i j
        have hS : choiceTable peak w Q i j ≤ ∑ k, choiceTable peak w Q k j :=
          single_le_sum (f := fun k => choiceTable peak w Q k j)
            (fun k _ => (choiceTable_pos peak w Q k j).le) (mem_univ i)
        refine mul_le_mul_of_nonneg_left (Real.logb_le_logb_of_le (by norm_num) ?_ ?_) hp.le
        · exact div_pos (mul_pos hM' hp) (hp.trans_le hS)
        · rw [div_le_iff₀ (hp.trans_le hS)]
          exact mul_le_mul_of_nonneg_left hS hM'.le
    _ = Real.logb 2 M * M := by
        simp_rw [← sum_mul, choiceTable_sum peak w Q hQ]
        simp [mul_comm]

/-- C55: the greedy selection returns a candidate of largest gain, the first one among ties, and stores
that gain. -/
theorem C55_greedy (hM : 0 < M) (peak : ℝ) (w : Fin M → Fin N → ℝ) (indicies prev : List (Fin N))
    (hi : indicies ≠ []) :
    ∃ c g, mutualInfoGreedy M peak w indicies prev = .ok (c, g) ∧ c ∈ indicies ∧
      mutualInfoGain M peak w (prev ++ [c]) = .ok g ∧
      (∀ c' ∈ indicies, ∃ g', mutualInfoGain M peak w (prev ++ [c']) = .ok g' ∧ g' ≤ g) ∧
      ∃ before after, indicies = before ++ c :: after ∧
        ∀ c' ∈ before, ∃ g', mutualInfoGain M peak w (prev ++ [c']) = .ok g' ∧ g' < g := by
  have hg : ∀ c, ∃ g, mutualInfoGain M peak w (prev ++ [c]) = .ok g := fun c =>
    ⟨_, mutualInfoGain_eq hM peak w _ (by simp)⟩
  choose G hG using hg
  have hmap : ∀ l : List (Fin N), l.mapM (fun idx => mutualInfoGain M peak w (prev ++ [idx]))
      = .ok (l.map G) := by
    intro l
    induction l with
    | nil => rfl
    | cons a l ih => rw [List.mapM_cons, hG, ih]; rfl
  obtain ⟨b, hb⟩ := npArgmax_isOk (l := indicies.map G) (by simpa using hi)
  obtain ⟨m, h1, h2, h3⟩ := npArgmax_spec hb
  obtain ⟨hlt, hm⟩ := List.getElem?_eq_some_iff.1 h1
  have hlt' : b < indicies.length := by simpa using hlt
  refine ⟨indicies[b], m, ?_, List.getElem_mem _, ?_, ?_, indicies.take b, indicies.drop (b + 1), ?_, ?_⟩
  · unfold mutualInfoGreedy
    rw [hmap]
    simp only [bind, Except.bind, hb, List.getElem?_eq_getElem hlt', h1]
    rfl
  · rw [hG, ← hm]
    simp
  · intro c' hc'
    exact ⟨G c', hG c', h2 _ (List.mem_map_of_mem hc')⟩
  · rw [← List.drop_eq_getElem_cons hlt', List.take_append_drop]
  · intro c' hc'
    obtain ⟨k, hk, rfl⟩ := List.getElem_of_mem hc'
    simp only [List.length_take] at hk
    refine ⟨_, hG _, h3 k _ (by omega) ?_⟩
    rw [List.getElem?_map, List.getElem_take, List.getElem?_eq_getElem (by omega)]
    rfl

/-- C55: the first candidate of a query is not chosen by information: with no previous selection every
candidate has gain 0 and the first one listed is returned with metric 0. -/
theorem C55_first (hM : 0 < M) (peak : ℝ) (w : Fin M → Fin N → ℝ) (c : Fin N)
    (rest : List (Fin N)) : mutualInfoGreedy M peak w (c :: rest) [] = .ok (c, 0) := by
  have h0 : ∀ c : Fin N, mutualInfoGain M peak w [c] = .ok 0 := by
    intro c
    obtain ⟨g, hg, hl, hu⟩ := C55_bounds hM peak w [c] (by simp)
    simp at hu
    rw [hg, le_antisymm hu hl]
  obtain ⟨c', g, h1, -, h2, -, before, after, h3, h4⟩ := C55_greedy hM peak w (c :: rest) [] (by simp)
  have hg : g = 0 := by
    have := h2.symm.trans (h0 c')
    simpa using this
  subst hg
  cases before with
  | nil => simp at h3; rw [h1, h3.1]
  | cons x l =>
    obtain ⟨g', h5, h6⟩ := h4 x (by simp)
    have := h5.symm.trans (h0 x)
    simp at this
    linarith

/-- Two samples that disagree: positive gain. -/
example : ∃ g, mutualInfoGain 2 10 (![![0, 1], ![1, 0]] : Fin 2 → Fin 2 → ℝ) [0, 1] = .ok g ∧ 0 < g := by
  obtain ⟨g, hg, h0, -⟩ := C55_bounds (M := 2) (by norm_num) 10 (![![0, 1], ![1, 0]] : Fin 2 → Fin 2 → ℝ)
    [0, 1] (by simp)
  refine ⟨g, hg, lt_of_le_of_ne h0 ?_⟩
  rintro rfl
  have := (C55_zero_iff (M := 2) (by norm_num) 10 (by norm_num) _ _ (by simp)).1 hg 0 1 0 (by simp) 1
    (by simp)
  simp at this
  norm_num at this

end C55

section C56

variable {N : Nat}

theorem clippedEntropy_congr {e : ℝ} {p q : Fin N → ℝ} (h : ∀ b, p b = q b) :
    clippedEntropy e p = clippedEntropy e q := by
  rw [show p = q from funext h]

/-- C56 refuted: with the default method 'probit' the expected remaining entropy equals the current
entropy for every query, whatever the win probabilities, so the computed gain is 0. -/
theorem C56_false (e : ℝ) (pB : Fin N → ℝ) (hB : IsDist pB) (P : Fin N → Fin N → ℝ)
    (hP : ∀ i j, 0 < P i j) (Q : List (Fin N)) (hQ : Q ≠ []) :
    clippedEntropy e pB - calcHBQ e .probit pB P Q = 0 := by
  have hw : ∀ i, 0 < winProd P Q i := fun i => prod_pos fun j _ => hP _ _
  haveI : Nonempty (Fin Q.length) := ⟨⟨0, List.length_pos_iff.2 hQ⟩⟩
  have hS : 0 < ∑ k, winProd P Q k := sum_pos (fun k _ => hw k) univ_nonempty
  have hpqb : ∀ i B, pqB .probit P Q i B = winProd P Q i := by
    intro i B
    unfold pqB
    split <;> rfl
  unfold calcHBQ
  simp only [hpqb]
  have hpq : ∀ i, winProd P Q i / ∑ k, winProd P Q k ≠ 0 := fun i => (div_pos (hw i) hS).ne'
  have ha : ∀ i B, winProd P Q i / (∑ k, winProd P Q k) * pB B / (winProd P Q i / ∑ k, winProd P Q k)
      = pB B := by
    intro i B
    rw [mul_comm, mul_div_assoc, div_self (hpq i), mul_one]
  simp only [ha, hB.2, div_one]
  rw [← sum_mul, ← sum_div, div_self hS.ne', one_mul, sub_self]

/-- Consequently the greedy selection always returns the first candidate offered. -/
theorem C56_greedy_first_counterexample (e : ℝ) (pB : Fin N → ℝ) (hB : IsDist pB) (P : Fin N → Fin N → ℝ)
    (hP : ∀ i j, 0 < P i j) (c : Fin N) (rest prev : List (Fin N)) (hprev : prev ≠ []) :
    bayesGreedy e .probit pB P (c :: rest) prev = .ok (some (c, 0)) := by
  have hz : ∀ i, clippedEntropy e pB - calcHBQ e .probit pB P (prev ++ [i]) = 0 := fun i =>
    C56_false e pB hB P hP _ (by simp)
  have hmap : (c :: rest).map (fun i => clippedEntropy e pB - calcHBQ e .probit pB P (prev ++ [i]))
      = List.replicate (rest.length + 1) 0 := by
    rw [List.map_congr_left fun i _ => hz i]
    simp [List.map_const', List.replicate_succ]
  have harg : ∀ (n i : Nat), argmaxFrom (List.replicate n (0 : ℝ)) i 0 0 = 0 := by
    intro n
    induction n with
    | zero => intro i; rfl
    | succ n ih => intro i; simp [List.replicate_succ, argmaxFrom, ih]
  unfold bayesGreedy
  rw [if_neg (by simp [hprev]), hmap]
  simp only [List.replicate_succ, npArgmax, bind, Except.bind, harg, List.getElem?_cons_zero]
  rfl

theorem winProd_pair (P : Fin N → Fin N → ℝ) (a b : Fin N) :
    winProd P [a, b] ⟨0, by simp⟩ = P a b ∧ winProd P [a, b] ⟨1, by simp⟩ = P b a := by
  constructor
  · unfold winProd
    rw [show (univ.erase (⟨0, by simp⟩ : Fin [a, b].length)) = {⟨1, by simp⟩} from rfl, prod_singleton]
    rfl
  · unfold winProd
    rw [show (univ.erase (⟨1, by simp⟩ : Fin [a, b].length)) = {⟨0, by simp⟩} from rfl, prod_singleton]
    rfl

theorem pqB_pair (meth : PQBMethod) (t : ℝ) (ht : meth = .m999 ∧ t = 0.999 ∨ meth = .m99 ∧ t = 0.99)
    (P : Fin 2 → Fin 2 → ℝ) :
    pqB meth P [0, 1] ⟨0, by simp⟩ 0 = t ∧ pqB meth P [0, 1] ⟨0, by simp⟩ 1 = P 0 1 ∧
    pqB meth P [0, 1] ⟨1, by simp⟩ 0 = P 1 0 ∧ pqB meth P [0, 1] ⟨1, by simp⟩ 1 = t := by
  have e0 : (univ.erase (⟨0, by simp⟩ : Fin [(0 : Fin 2), 1].length)) = {⟨1, by simp⟩} := rfl
  have e1 : (univ.erase (⟨1, by simp⟩ : Fin [(0 : Fin 2), 1].length)) = {⟨0, by simp⟩} := rfl
  rcases ht with ⟨rfl, rfl⟩ | ⟨rfl, rfl⟩ <;>
  · unfold pqB
    rw [e0, e1]
    simp only [prod_singleton]
    simp

/-- C56 for the other methods: two equally good candidates under a uniform belief have a strictly
positive gain with '999' and '99'. -/
theorem C56_other_methods_partial (e : ℝ) (he : e ≤ 1 / 10) (meth : PQBMethod)
    (hm : meth = .m999 ∨ meth = .m99) :
    0 < clippedEntropy e (fun _ : Fin 2 => 1 / 2) -
      calcHBQ e meth (fun _ : Fin 2 => 1 / 2) (fun _ _ => 1 / 2) [0, 1] := by
  obtain ⟨t, ht⟩ : ∃ t : ℝ, meth = .m999 ∧ t = 0.999 ∨ meth = .m99 ∧ t = 0.99 := by
    rcases hm with h | h
    · exact ⟨_, .inl ⟨h, rfl⟩⟩
    · exact ⟨_, .inr ⟨h, rfl⟩⟩
  obtain ⟨q00, q01, q10, q11⟩ := pqB_pair meth t ht (fun _ _ => 1 / 2)
  obtain ⟨w0, w1⟩ := winProd_pair (fun _ _ : Fin 2 => (1 / 2 : ℝ)) 0 1
  have ht' : t = 0.999 ∨ t = 0.99 := ht.imp (·.2) (·.2)
  have h0 : 0 < t := by rcases ht' with rfl | rfl <;> norm_num
  have ht2 : t ≤ 1 := by rcases ht' with rfl | rfl <;> norm_num
  have h1 : (1/2) / (t + 1/2) = 1 - t / (t + 1/2) := by field_simp; ring
  have key := Real.binEntropy_lt_log_two.2 (show t / (t + 1/2) ≠ 2⁻¹ by
    intro h
    rw [div_eq_iff (by positivity)] at h
    rcases ht' with rfl | rfl <;> norm_num at h)
  rw [Real.binEntropy_eq_negMulLog_add_negMulLog_one_sub] at key
  unfold Real.negMulLog at key
  have hH : clippedEntropy e (fun _ : Fin 2 => 1 / 2) = Real.log 2 := by
    unfold clippedEntropy
    rw [Fin.sum_univ_two, if_neg (by linarith)]
    rw [show (1 / 2 : ℝ) = 2⁻¹ by norm_num, Real.log_inv]
    ring
  have hsum : ∀ f : Fin ([0, 1] : List (Fin 2)).length → ℝ,
      ∑ i, f i = f ⟨0, by simp⟩ + f ⟨1, by simp⟩ := fun f => Fin.sum_univ_two f
  have hc1 : ¬ t / (t + 1/2) < e := by
    rw [not_lt]
    refine he.trans ?_
    rw [div_le_div_iff₀ (by norm_num) (by positivity)]
    rcases ht' with rfl | rfl <;> norm_num
  have hc2 : ¬ (1/2) / (t + 1/2) < e := by
    rw [not_lt]
    refine he.trans ?_
    rw [div_le_div_iff₀ (by norm_num) (by positivity)]
    linarith
  have hQ : calcHBQ e meth (fun _ : Fin 2 => 1 / 2) (fun _ _ => 1 / 2) [0, 1] =
      -(t / (t + 1/2) * Real.log (t / (t + 1/2)) + (1/2) / (t + 1/2) * Real.log ((1/2) / (t + 1/2))) := by
    unfold calcHBQ clippedEntropy
    simp only [hsum, Fin.sum_univ_two, q00, q01, q10, q11, w0, w1]
    have a1 : t / (t + 1/2) * (1/2) / (1/2 / (1/2 + 1/2)) /
        (t / (t + 1/2) * (1/2) / (1/2 / (1/2 + 1/2)) + (1/2) / (1/2 + t) * (1/2) / (1/2 / (1/2 + 1/2)))
        = t / (t + 1/2) := by
      field_simp
      ring
    have a2 : (1/2) / (1/2 + t) * (1/2) / (1/2 / (1/2 + 1/2)) /
        (t / (t + 1/2) * (1/2) / (1/2 / (1/2 + 1/2)) + (1/2) / (1/2 + t) * (1/2) / (1/2 / (1/2 + 1/2)))
        = (1/2) / (t + 1/2) := by
      field_simp
      ring
    have a3 : (1/2) / (t + 1/2) * (1/2) / (1/2 / (1/2 + 1/2)) /
        ((1/2) / (t + 1/2) * (1/2) / (1/2 / (1/2 + 1/2)) + t / (1/2 + t) * (1/2) / (1/2 / (1/2 + 1/2)))
        = (1/2) / (t + 1/2) := by
      field_simp
      ring
    have a4 : t / (1/2 + t) * (1/2) / (1/2 / (1/2 + 1/2)) /
        ((1/2) / (t + 1/2) * (1/2) / (1/2 / (1/2 + 1/2)) + t / (1/2 + t) * (1/2) / (1/2 / (1/2 + 1/2)))
        = t / (t + 1/2) := by
      field_simp
      ring
    rw [a1, a2, a3, a4, if_neg hc1, if_neg hc2]
    ring
  rw [hH, hQ, h1]
  linarith

/-- C56 for `select_pair` with the default method: for two candidates and a uniform belief the gain is
log 2 minus the binary entropy of the win probability, hence positive unless that is 1/2. -/
theorem C56_pair_partial (e p : ℝ) (hp0 : 0 < p) (hp1 : p < 1) (he : e ≤ p) (he' : e ≤ 1 - p)
    (P : Fin 2 → Fin 2 → ℝ) (h01 : P 0 1 = p) (h10 : P 1 0 = 1 - p) :
    pairInfoGain e .probit (fun _ : Fin 2 => 1 / 2) P 0 1 = Real.log 2 - Real.binEntropy p ∧
    (p ≠ 1 / 2 → 0 < pairInfoGain e .probit (fun _ : Fin 2 => 1 / 2) P 0 1) := by
  have main : pairInfoGain e .probit (fun _ : Fin 2 => 1 / 2) P 0 1
      = Real.log 2 - Real.binEntropy p := by
    have he2 : ¬ (1 / 2 : ℝ) < e := by
      rw [not_lt]
      linarith
    have hH : clippedEntropy e (fun _ : Fin 2 => 1 / 2) = Real.log 2 := by
      unfold clippedEntropy
      rw [Fin.sum_univ_two, if_neg he2]
      rw [show (1 / 2 : ℝ) = 2⁻¹ by norm_num, Real.log_inv]
      ring
    have hq : 0 < 1 - p := by linarith
    have ent : ∀ f : Fin 2 → ℝ, (f 0 = p ∧ f 1 = 1 - p ∨ f 0 = 1 - p ∧ f 1 = p) →
        clippedEntropy e f = Real.binEntropy p := by
      intro f hf
      rw [Real.binEntropy_eq_negMulLog_add_negMulLog_one_sub]
      unfold clippedEntropy Real.negMulLog
      rw [Fin.sum_univ_two]
      rcases hf with ⟨h0, h1⟩ | ⟨h0, h1⟩
      · rw [if_neg (by rw [h0]; exact not_lt.2 he), if_neg (by rw [h1]; exact not_lt.2 he'), h0, h1]
        ring
      · rw [if_neg (by rw [h0]; exact not_lt.2 he'), if_neg (by rw [h1]; exact not_lt.2 he), h0, h1]
        ring
    have hmm : (max p (1 - p) = p ∧ min p (1 - p) = 1 - p) ∨
        (max p (1 - p) = 1 - p ∧ min p (1 - p) = p) := by
      rcases le_total p (1 - p) with h | h
      · exact .inr ⟨max_eq_right h, min_eq_left h⟩
      · exact .inl ⟨max_eq_left h, min_eq_right h⟩
    have hs : max p (1 - p) + min p (1 - p) = 1 := by rw [max_add_min]; ring
    have b1 : pairHBq e .probit (fun _ : Fin 2 => 1 / 2) P 0 1 = Real.binEntropy p := by
      have f0 : pairPQB .probit P 0 1 0 = max p (1 - p) := by simp [pairPQB, h01, h10]
      have f1 : pairPQB .probit P 0 1 1 = min p (1 - p) := by
        simp [pairPQB, h01, h10, min_comm]
      have g : ∀ x : ℝ, x * (1 / 2) / p / (1 * (1 / 2) / p) = x := by
        intro x
        field_simp
      refine ent _ ?_
      rw [Fin.sum_univ_two, f0, f1, h01, ← add_div, ← add_mul, hs, g, g, f0, f1]
      exact hmm
    have b2 : pairHBq e .probit (fun _ : Fin 2 => 1 / 2) P 1 0 = Real.binEntropy p := by
      have f0 : pairPQB .probit P 1 0 0 = min p (1 - p) := by simp [pairPQB, h01, h10]
      have f1 : pairPQB .probit P 1 0 1 = max p (1 - p) := by
        simp [pairPQB, h01, h10, max_comm]
      have g : ∀ x : ℝ, x * (1 / 2) / (1 - p) / (1 * (1 / 2) / (1 - p)) = x := by
        intro x
        field_simp
      refine ent _ ?_
      rw [Fin.sum_univ_two, f0, f1, h10, ← add_div, ← add_mul, add_comm (min p (1 - p)), hs, g, g, f0, f1]
      rcases hmm with h | h
      · exact .inr ⟨h.2, h.1⟩
      · exact .inl ⟨h.2, h.1⟩
    unfold pairInfoGain
    rw [b1, b2, hH, h01, h10]
    ring
  refine ⟨main, fun hne => ?_⟩
  rw [main]
  have := Real.binEntropy_lt_log_two.2 (show p ≠ 2⁻¹ by rwa [← one_div])
  linarith

theorem clippedEntropy_le_two {e x : ℝ} (hx0 : 0 < x) (hx1 : x < 1) :
    clippedEntropy e (![1 - x, x] : Fin 2 → ℝ) ≤ x * Real.log (1 / x) + x := by
  obtain ⟨f, hf⟩ : ∃ f : Fin 2 → ℝ, f = ![1 - x, x] := ⟨_, rfl⟩
  have f0 : f 0 = 1 - x := by rw [hf]; rfl
  have f1 : f 1 = x := by rw [hf]; rfl
  rw [← hf]
  unfold clippedEntropy
  rw [Fin.sum_univ_two, f0, f1]
  have h1 : (1 - x) * Real.log (1 - x) ≥ -x := by
    have := Real.one_sub_inv_le_log_of_pos (show 0 < 1 - x by linarith)
    have h2 : (1 - x) * (1 - (1 - x)⁻¹) = -x := by
      have : (1 - x) ≠ 0 := by linarith
      field_simp
      ring
    rw [← h2]
    exact mul_le_mul_of_nonneg_left this (by linarith)
  have h2 : Real.log (1 / x) = -Real.log x := by rw [one_div, Real.log_inv]
  have h3 : Real.log x ≤ 0 := Real.log_nonpos hx0.le hx1.le
  rw [h2]
  refine le_trans (neg_le_neg (add_le_add (a := -x) (b := _) (c := x * Real.log x) ?_ ?_)) (by linarith)
  · by_cases h : 1 - x < e
    · rw [if_pos h]; linarith
    · rw [if_neg h]; exact h1
  · by_cases h : x < e
    · rw [if_pos h]; exact mul_nonpos_of_nonneg_of_nonpos hx0.le h3
    · rw [if_neg h]

theorem clippedEntropy_ge_norm {e y : ℝ} {n : Nat} {a : Fin n → ℝ} (ha : ∀ b, 0 ≤ a b) (b : Fin n)
    (hy : a b / ∑ b', a b' = y) (he : e ≤ y) :
    y * Real.log (1 / y) ≤ clippedEntropy e fun b => a b / ∑ b', a b' := by
  have h0 : ∀ b, 0 ≤ a b / ∑ b', a b' := fun b => div_nonneg (ha b) (sum_nonneg fun b _ => ha b)
  have h1 : ∀ b, a b / ∑ b', a b' ≤ 1 := fun b =>
    div_le_one_of_le₀ (single_le_sum (fun b _ => ha b) (mem_univ b)) (sum_nonneg fun b _ => ha b)
  unfold clippedEntropy
  rw [← sum_neg_distrib, one_div, Real.log_inv]
  have := single_le_sum
    (f := fun b => -(if a b / ∑ b', a b' < e then 0 else a b / (∑ b', a b') * Real.log (a b / ∑ b', a b')))
    (s := univ) (fun b _ => by
      rw [neg_nonneg]
      split_ifs
      · exact le_rfl
      · exact mul_nonpos_of_nonneg_of_nonpos (h0 b) (Real.log_nonpos (h0 b) (h1 b))) (mem_univ b)
  refine le_trans (le_of_eq ?_) this
  simp only [hy, if_neg (not_lt.2 he)]
  ring

theorem clippedEntropy_nonneg_norm {e : ℝ} {n : Nat} {a : Fin n → ℝ} (ha : ∀ b, 0 ≤ a b) :
    0 ≤ clippedEntropy e fun b => a b / ∑ b', a b' := by
  have h0 : ∀ b, 0 ≤ a b / ∑ b', a b' := fun b => div_nonneg (ha b) (sum_nonneg fun b _ => ha b)
  have h1 : ∀ b, a b / ∑ b', a b' ≤ 1 := fun b =>
    div_le_one_of_le₀ (single_le_sum (fun b _ => ha b) (mem_univ b)) (sum_nonneg fun b _ => ha b)
  unfold clippedEntropy
  rw [neg_nonneg]
  refine sum_nonpos fun b _ => ?_
  split_ifs
  · exact le_rfl
  · exact mul_nonpos_of_nonneg_of_nonpos (h0 b) (Real.log_nonpos (h0 b) (h1 b))

/-- C56 refuted for `select_pair` with '999' and '99': the computed gain of a question can be negative. Two
candidates with equal win probabilities, and the belief that the first is the best with probability 0.999 (0.99). -/
theorem C56_pair_negative_counterexample (e : ℝ) (he : e ≤ 1 / 2) (meth : PQBMethod) (t : ℝ)
    (ht : meth = .m999 ∧ t = 0.999 ∨ meth = .m99 ∧ t = 0.99) :
    IsDist (![t, 1 - t] : Fin 2 → ℝ) ∧ pairInfoGain e meth ![t, 1 - t] (fun _ _ => 1 / 2) 0 1 < 0 := by
  have ht' : t = 0.999 ∨ t = 0.99 := ht.imp (·.2) (·.2)
  have h0 : 0 < t := by rcases ht' with rfl | rfl <;> norm_num
  have h1 : 0 < 1 - t := by rcases ht' with rfl | rfl <;> norm_num
  have hP : pairPQB meth (fun _ _ : Fin 2 => (1 / 2 : ℝ)) 0 1 0 = t ∧
      pairPQB meth (fun _ _ : Fin 2 => (1 / 2 : ℝ)) 0 1 1 = 1 - t ∧
      pairPQB meth (fun _ _ : Fin 2 => (1 / 2 : ℝ)) 1 0 0 = 1 - t ∧
      pairPQB meth (fun _ _ : Fin 2 => (1 / 2 : ℝ)) 1 0 1 = t := by
    rcases ht with ⟨rfl, rfl⟩ | ⟨rfl, rfl⟩ <;> simp [pairPQB] <;> norm_num
  obtain ⟨p0, p1, p2, p3⟩ := hP
  refine ⟨⟨fun b => by fin_cases b <;> simp <;> linarith, by simp [Fin.sum_univ_two]⟩, ?_⟩
  have hH : clippedEntropy e (![t, 1 - t] : Fin 2 → ℝ) < 0.1 := by
    have := clippedEntropy_le_two (e := e) (x := 1 - t) (by linarith) (by linarith)
    rw [sub_sub_cancel] at this
    refine this.trans_lt ?_
    have l2 := Real.log_two_lt_d9
    rcases ht' with rfl | rfl
    · have : Real.log (1 / (1 - 0.999)) ≤ 10 * Real.log 2 := by
        rw [← Real.log_rpow (by norm_num)]
        exact Real.log_le_log (by norm_num) (by norm_num)
      linarith
    · have : Real.log (1 / (1 - 0.99)) ≤ 7 * Real.log 2 := by
        rw [← Real.log_rpow (by norm_num)]
        exact Real.log_le_log (by norm_num) (by norm_num)
      linarith
  have hA : 0 ≤ pairHBq e meth (![t, 1 - t] : Fin 2 → ℝ) (fun _ _ => 1 / 2) 0 1 := by
    unfold pairHBq
    refine clippedEntropy_nonneg_norm (Fin.forall_fin_two.2 ⟨?_, ?_⟩)
    · rw [p0, Matrix.cons_val_zero]; positivity
    · rw [p1, Matrix.cons_val_one, Matrix.cons_val_zero]; positivity
  have hB : Real.log 2 ≤ pairHBq e meth (![t, 1 - t] : Fin 2 → ℝ) (fun _ _ => 1 / 2) 1 0 := by
    unfold pairHBq
    have hhalf : ∀ b : Fin 2, pairPQB meth (fun _ _ : Fin 2 => (1 / 2 : ℝ)) 1 0 b * (![t, 1 - t] : Fin 2 → ℝ) b /
        (1 / 2) / ∑ b', pairPQB meth (fun _ _ : Fin 2 => (1 / 2 : ℝ)) 1 0 b' * (![t, 1 - t] : Fin 2 → ℝ) b' / (1 / 2)
        = 1 / 2 := by
      rw [Fin.sum_univ_two, p2, p3]
      refine Fin.forall_fin_two.2 ⟨?_, ?_⟩
      · rw [p2, Matrix.cons_val_zero, Matrix.cons_val_one, Matrix.cons_val_zero]
        field_simp
        ring
      · rw [p3, Matrix.cons_val_zero, Matrix.cons_val_one, Matrix.cons_val_zero]
        field_simp
        ring
    rw [clippedEntropy_congr hhalf]
    unfold clippedEntropy
    rw [Fin.sum_univ_two, if_neg (not_lt.2 he), show (1 / 2 : ℝ) = 2⁻¹ by norm_num, Real.log_inv]
    linarith
  unfold pairInfoGain
  have := Real.log_two_gt_d9
  linarith

/-- C56 refuted for the greedy step with '999' and '99': the computed expected entropy can exceed the present
one. Two candidates with equal win probabilities, and a belief of 1/(1+2^20) in the second. -/
theorem C56_negative_counterexample (e : ℝ) (he : e ≤ 1 / 10 ^ 7) (meth : PQBMethod)
    (hm : meth = .m999 ∨ meth = .m99) (x : ℝ) (hx : x = 1 / (1 + 2 ^ 20)) :
    IsDist (![1 - x, x] : Fin 2 → ℝ) ∧
    clippedEntropy e ![1 - x, x] - calcHBQ e meth ![1 - x, x] (fun _ _ => 1 / 2) [0, 1] < 0 := by
  obtain ⟨t, ht⟩ : ∃ t : ℝ, meth = .m999 ∧ t = 0.999 ∨ meth = .m99 ∧ t = 0.99 := by
    rcases hm with h | h
    · exact ⟨_, .inl ⟨h, rfl⟩⟩
    · exact ⟨_, .inr ⟨h, rfl⟩⟩
  obtain ⟨q00, q01, q10, q11⟩ := pqB_pair meth t ht (fun _ _ => 1 / 2)
  obtain ⟨w0, w1⟩ := winProd_pair (fun _ _ : Fin 2 => (1 / 2 : ℝ)) 0 1
  have ht' : t = 0.999 ∨ t = 0.99 := ht.imp (·.2) (·.2)
  have h0 : 0.99 ≤ t := by rcases ht' with rfl | rfl <;> norm_num
  have h1 : t ≤ 1 := by rcases ht' with rfl | rfl <;> norm_num
  have hx0 : 0 < x := by rw [hx]; positivity
  have hx1 : x < 1 / 10 ^ 6 := by rw [hx]; norm_num
  refine ⟨⟨fun b => by fin_cases b <;> simp <;> linarith, by simp [Fin.sum_univ_two]⟩, ?_⟩
  have l1 := Real.log_two_lt_d9
  have l0 := Real.log_two_gt_d9
  have hH : clippedEntropy e (![1 - x, x] : Fin 2 → ℝ) ≤ 15.56 / (1 + 2 ^ 20) := by
    have := clippedEntropy_le_two (e := e) hx0 (by linarith : x < 1)
    have h2 : Real.log (1 / x) ≤ 21 * Real.log 2 := by
      rw [← Real.log_rpow (by norm_num), hx]
      exact Real.log_le_log (by norm_num) (by norm_num)
    have h3 : x * Real.log (1 / x) ≤ x * 14.56 := mul_le_mul_of_nonneg_left (by linarith) hx0.le
    have h4 : x * 14.56 + x = 15.56 / (1 + 2 ^ 20) := by rw [hx]; ring
    linarith
  have hsum : ∀ f : Fin ([0, 1] : List (Fin 2)).length → ℝ,
      ∑ i, f i = f ⟨0, by simp⟩ + f ⟨1, by simp⟩ := fun f => Fin.sum_univ_two f
  have E0 := clippedEntropy_ge_norm (e := e) (y := 1 / (2 * t * 2 ^ 20 + 1))
    (a := fun B => pqB meth (fun _ _ => 1 / 2) [0, 1] ⟨0, by simp⟩ B /
      (pqB meth (fun _ _ => 1 / 2) [0, 1] ⟨0, by simp⟩ B + pqB meth (fun _ _ => 1 / 2) [0, 1] ⟨1, by simp⟩ B) *
      (![1 - x, x] : Fin 2 → ℝ) B / (1 / 2 / (1 / 2 + 1 / 2)))
    (Fin.forall_fin_two.2 ⟨by
      rw [q00, q10, Matrix.cons_val_zero]
      have : 0 < 1 - x := by linarith
      positivity, by
      rw [q01, q11, Matrix.cons_val_one, Matrix.cons_val_zero]
      positivity⟩) 1 (by
      rw [Fin.sum_univ_two]
      simp only [q00, q01, q10, q11, Matrix.cons_val_one, Matrix.cons_val_zero, hx]
      have : 0 < t := by linarith
      field_simp
      ring) (he.trans (by
      rw [div_le_div_iff₀ (by norm_num) (by positivity)]
      nlinarith))
  have E1 := clippedEntropy_ge_norm (e := e) (y := 2 * t / (2 ^ 20 + 2 * t))
    (a := fun B => pqB meth (fun _ _ => 1 / 2) [0, 1] ⟨1, by simp⟩ B /
      (pqB meth (fun _ _ => 1 / 2) [0, 1] ⟨0, by simp⟩ B + pqB meth (fun _ _ => 1 / 2) [0, 1] ⟨1, by simp⟩ B) *
      (![1 - x, x] : Fin 2 → ℝ) B / (1 / 2 / (1 / 2 + 1 / 2)))
    (Fin.forall_fin_two.2 ⟨by
      rw [q00, q10, Matrix.cons_val_zero]
      have : 0 < 1 - x := by linarith
      positivity, by
      rw [q01, q11, Matrix.cons_val_one, Matrix.cons_val_zero]
      positivity⟩) 1 (by
      rw [Fin.sum_univ_two]
      simp only [q00, q01, q10, q11, Matrix.cons_val_one, Matrix.cons_val_zero, hx]
      have : 0 < t := by linarith
      field_simp
      ring) (he.trans (by
      rw [div_le_div_iff₀ (by norm_num) (by positivity)]
      nlinarith))
  have b0 : 1 / (2 * 2 ^ 20 + 1) * (20 * Real.log 2) ≤
      1 / (2 * t * 2 ^ 20 + 1) * Real.log (1 / (1 / (2 * t * 2 ^ 20 + 1))) := by
    refine mul_le_mul ?_ ?_ (by positivity) (by positivity)
    · exact one_div_le_one_div_of_le (by positivity) (by nlinarith)
    · rw [← Real.log_rpow (by norm_num), one_div_one_div]
      exact Real.log_le_log (by norm_num) (by norm_num; linarith)
  have b1 : 1.98 / (2 ^ 20 + 2) * (19 * Real.log 2) ≤
      2 * t / (2 ^ 20 + 2 * t) * Real.log (1 / (2 * t / (2 ^ 20 + 2 * t))) := by
    refine mul_le_mul ?_ ?_ (by positivity) (by positivity)
    · exact div_le_div₀ (by linarith) (by linarith) (by positivity) (by linarith)
    · rw [← Real.log_rpow (by norm_num), one_div_div]
      refine Real.log_le_log (by norm_num) ?_
      rw [le_div_iff₀ (by linarith)]
      norm_num
      linarith
  unfold calcHBQ
  simp only [hsum, w0, w1]
  have c0 : (1.98 / (2 ^ 20 + 2) * (19 * 0.6931) + 1 / (2 * 2 ^ 20 + 1) * (20 * 0.6931) : ℝ) / 2 >
      15.56 / (1 + 2 ^ 20) := by norm_num
  have c1 : 1.98 / (2 ^ 20 + 2) * (19 * 0.6931) ≤ 1.98 / (2 ^ 20 + 2) * (19 * Real.log 2) :=
    mul_le_mul_of_nonneg_left (by linarith) (by positivity)
  have c2 : 1 / (2 * 2 ^ 20 + 1) * (20 * 0.6931) ≤ 1 / (2 * 2 ^ 20 + 1) * (20 * Real.log 2) :=
    mul_le_mul_of_nonneg_left (by linarith) (by positivity)
  have d0 := c2.trans (b0.trans E0)
  have d1 := c1.trans (b1.trans E1)
  have hw : (1 / 2 / (1 / 2 + 1 / 2) : ℝ) = 1 / 2 := by norm_num
  rw [hw] at d0 d1 ⊢
  linarith

/-- Instance of the hypotheses of the refutation: three candidates, all win probabilities 1/2. -/
example : IsDist (fun _ : Fin 3 => (1 / 3 : ℝ)) ∧ ∀ i j : Fin 3, (0 : ℝ) < (fun _ _ => 1 / 2) i j :=
  ⟨⟨fun _ => by norm_num, by simp⟩, fun _ _ => by norm_num⟩

end C56

/-- C56, an unknown method name: a query that contains every candidate is computed to bring no information, whatever the
win probabilities, because every answer is taken to be equally likely under every hypothesis. -/
theorem C56_unknown_method (e : ℝ) (pB : Fin N → ℝ) (hB : IsDist pB) (P : Fin N → Fin N → ℝ)
    (hP : ∀ i j, 0 < P i j) (Q : List (Fin N)) (hQ : Q ≠ []) (hall : ∀ b, b ∈ Q) :
    clippedEntropy e pB - calcHBQ e .other pB P Q = 0 := by
  have hw : ∀ i, 0 < winProd P Q i := fun i => prod_pos fun j _ => hP _ _
  haveI : Nonempty (Fin Q.length) := ⟨⟨0, List.length_pos_iff.2 hQ⟩⟩
  have hS : 0 < ∑ k, winProd P Q k := sum_pos (fun k _ => hw k) univ_nonempty
  have hpqb : ∀ i B, pqB .other P Q i B = 1 := by
    intro i B
    unfold pqB
    rw [if_neg (not_not.2 (hall B))]
  unfold calcHBQ
  simp only [hpqb]
  have hc : (∑ _k : Fin Q.length, (1 : ℝ)) ≠ 0 := by
    simpa using hQ
  have ha : ∀ i B, 1 / (∑ _k : Fin Q.length, (1 : ℝ)) * pB B / (winProd P Q i / ∑ k, winProd P Q k) /
      ∑ B', 1 / (∑ _k : Fin Q.length, (1 : ℝ)) * pB B' / (winProd P Q i / ∑ k, winProd P Q k) = pB B := by
    intro i B
    have hq : winProd P Q i / ∑ k, winProd P Q k ≠ 0 := (div_pos (hw i) hS).ne'
    have hw' := (hw i).ne'
    rw [← sum_div, ← mul_sum, hB.2]
    field_simp
  simp only [ha]
  rw [← sum_mul, ← sum_div, div_self hS.ne', one_mul, sub_self]

/-- Instance: both of two candidates asked. -/
example : ∀ b : Fin 2, b ∈ [(0 : Fin 2), 1] := by decide

/-- C56: with no previous selection the greedy step draws its candidate at random (`none`), whatever the method. -/
theorem C56_first_random (e : ℝ) (meth : PQBMethod) (pB : Fin N → ℝ) (P : Fin N → Fin N → ℝ) (indicies : List (Fin N))
    (h : indicies ≠ []) : bayesGreedy e meth pB P indicies [] = .ok none := by
  unfold bayesGreedy
  rw [if_pos ⟨rfl, h⟩]

/-- C56: for complementary win probabilities the answer probabilities which `select_pair` assumes for a question
`i` or `j` are a distribution under every hypothesis about the best candidate. -/
theorem C56_pair_answers (meth : PQBMethod) (P : Fin N → Fin N → ℝ) (hP : ∀ i j, P i j + P j i = 1) (i j b : Fin N) :
    pairPQB meth P i j b + pairPQB meth P j i b = 1 := by
  by_cases hij : i = j
  · subst hij
    simp only [pairPQB, if_true]
    norm_num
  · have hji : j ≠ i := fun h => hij h.symm
    have hmm : ∀ x y : ℝ, min x y + max x y = x + y := fun x y => min_add_max x y
    by_cases h1 : j = b
    · subst h1
      cases meth <;> simp [pairPQB, hij, hji, hmm, hP] <;> norm_num
    · by_cases h2 : i = b
      · subst h2
        have := add_comm (max (P i j) (P j i)) (min (P i j) (P j i))
        cases meth <;> simp [pairPQB, hij, hji, hmm, hP, min_comm (P j i), max_comm (P j i)] <;> norm_num
      · cases meth <;> simp [pairPQB, hij, hji, h1, h2, hP]

example : ∀ i j : Fin 2, (fun i j : Fin 2 => if i = j then (1 / 2 : ℝ) else if i = 0 then 1 / 4 else 3 / 4) i j +
    (fun i j : Fin 2 => if i = j then (1 / 2 : ℝ) else if i = 0 then 1 / 4 else 3 / 4) j i = 1 := by
  intro i j
  fin_cases i <;> fin_cases j <;> norm_num

end Lop.Props
