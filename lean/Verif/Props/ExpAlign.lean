import Verif.Model.ExpAlign
import Verif.Spec.ExpAlign
import Verif.Proofs.Basic
import Verif.Props.PrefProbit
import Mathlib.Data.Fin.VecNotation
import Mathlib.Tactic.FinCases
import Mathlib.Tactic.Linarith
import Mathlib.Tactic.FieldSimp
import Mathlib.Tactic.Ring
import Mathlib.Tactic.NormNum
import Mathlib.Tactic.Positivity
import Mathlib.Algebra.BigOperators.Fin
import Mathlib.Algebra.BigOperators.Field
import Mathlib.Algebra.Order.BigOperators.GroupWithZero.List

/-! # C57: expected alignment -/

namespace Lop.Props

open Lop Lop.Spec Finset

variable {M N : Nat}

theorem foldl_addMat {ι : Type*} (l : List ι) (g : ι → Fin N → Fin N → ℝ) (acc : Fin N → Fin N → ℝ)
    (a b : Fin N) :
    l.foldl (fun acc j => fun a b => acc a b + g j a b) acc a b = acc a b + (l.map fun j => g j a b).sum := by
  induction l generalizing acc with
  | nil => simp
  | cons x l ih => rw [List.foldl_cons, ih, List.map_cons, List.sum_cons, add_assoc]

/-- C57: the loop implementation and the vectorised implementation compute the same matrix. -/
theorem C57_paths (f : Fin M → Fin M → ℝ) (pq : Fin M → Fin N → Fin N → ℝ) (a b : Fin N) :
    quickSumAlign f pq a b = vecSumAlign f pq a b := by
  unfold quickSumAlign vecSumAlign
  have hin : ∀ (i : Fin M) (acc : Fin N → Fin N → ℝ),
      (List.finRange M).foldl (fun acc j => fun a b => acc a b + f i j * pq i a b * pq j a b) acc
        = fun a b => acc a b + ∑ j, f i j * pq i a b * pq j a b := by
    intro i acc
    funext a b
    rw [foldl_addMat (List.finRange M) (fun j a b => f i j * pq i a b * pq j a b)]
    rw [← List.ofFn_eq_map, List.sum_ofFn]
  simp only [hin]
  rw [foldl_addMat (List.finRange M) (fun i a b => ∑ j, f i j * pq i a b * pq j a b), zero_add]
  rw [← List.ofFn_eq_map, List.sum_ofFn]
  exact sum_congr rfl fun w _ => sum_congr rfl fun w' _ => by ring

/-- Value computed by the program from answer probabilities, as an expected alignment. -/
theorem answer_value (f : Fin M → Fin M → ℝ) {n : Nat} (hM : 0 < M) (π : Fin M → Fin n → ℝ) (q : Fin n)
    (hS : 0 < ∑ w, π w q) :
    (∑ w, ∑ w', π w' q * π w q * f w w') / (M * M : ℝ) / ((∑ w, π w q) / M) =
      (∑ w, π w q) / M * ∑ w, ∑ w', postWeight π q w * postWeight π q w' * f w w' := by
  have hM' : (M : ℝ) ≠ 0 := by exact_mod_cast hM.ne'
  have h : ∑ w, ∑ w', postWeight π q w * postWeight π q w' * f w w' =
      (∑ w, ∑ w', π w' q * π w q * f w w') / ((∑ w, π w q) * ∑ w, π w q) := by
    rw [sum_div]
    refine sum_congr rfl fun w _ => ?_
    rw [sum_div]
    refine sum_congr rfl fun w' _ => ?_
    unfold postWeight
    field_simp
  rw [h]
  field_simp

/-- C57: for a pair the computed value is the expected alignment of the specification, on both code
paths. -/
theorem C57_pair_value (hM : 0 < M) (f : Fin M → Fin M → ℝ) (pq : Fin M → Fin N → Fin N → ℝ)
    (hp : ∀ w a b, 0 < pq w a b) (a b : Fin N) :
    pairAlign f pq a b = expectedAlign f fun w => ![pq w a b, pq w b a] := by
  haveI : Nonempty (Fin M) := ⟨⟨0, hM⟩⟩
  have hS : ∀ a b, 0 < ∑ w, pq w a b := fun a b => sum_pos (fun w _ => hp w a b) univ_nonempty
  unfold pairAlign
  simp only [C57_paths, ite_self]
  unfold vecSumAlign expectedAlign
  rw [Fin.sum_univ_two]
  have h0 := answer_value f hM (fun w => ![pq w a b, pq w b a]) 0 (by simpa using hS a b)
  have h1 := answer_value f hM (fun w => ![pq w a b, pq w b a]) 1 (by simpa using hS b a)
  rw [← h0, ← h1]
  rfl

/-- C57: when the answer probabilities of every sample add up to 1, the expected alignment is a convex
combination of alignment values; in particular it lies between any bounds of them. -/
theorem C57_convex (hM : 0 < M) {n : Nat} (f : Fin M → Fin M → ℝ) (π : Fin M → Fin n → ℝ)
    (hp : ∀ w q, 0 < π w q) (h1 : ∀ w, ∑ q, π w q = 1) :
    (∃ c : Fin M → Fin M → ℝ, (∀ w w', 0 ≤ c w w') ∧ ∑ w, ∑ w', c w w' = 1 ∧
      expectedAlign f π = ∑ w, ∑ w', c w w' * f w w') ∧
    ∀ lo hi, (∀ w w', lo ≤ f w w' ∧ f w w' ≤ hi) →
      lo ≤ expectedAlign f π ∧ expectedAlign f π ≤ hi := by
  haveI : Nonempty (Fin M) := ⟨⟨0, hM⟩⟩
  have hM' : (0 : ℝ) < M := by exact_mod_cast hM
  have hS : ∀ q, 0 < ∑ w, π w q := fun q => sum_pos (fun w _ => hp w q) univ_nonempty
  have hpw : ∀ q w, 0 ≤ postWeight π q w := fun q w => (div_pos (hp w q) (hS q)).le
  have hps : ∀ q, ∑ w, postWeight π q w = 1 := by
    intro q
    unfold postWeight
    rw [← sum_div, div_self (hS q).ne']
  have hcomm : ∀ g : Fin n → Fin M → Fin M → ℝ,
      ∑ w, ∑ w', ∑ q, g q w w' = ∑ q, ∑ w, ∑ w', g q w w' := fun g =>
    (sum_congr rfl fun w _ => sum_comm).trans sum_comm
  have key : ∃ c : Fin M → Fin M → ℝ, (∀ w w', 0 ≤ c w w') ∧ ∑ w, ∑ w', c w w' = 1 ∧
      expectedAlign f π = ∑ w, ∑ w', c w w' * f w w' := by
    refine ⟨fun w w' => ∑ q, (∑ k, π k q) / M * (postWeight π q w * postWeight π q w'), ?_, ?_, ?_⟩
    · intro w w'
      exact sum_nonneg fun q _ => mul_nonneg (div_nonneg (hS q).le hM'.le)
        (mul_nonneg (hpw q w) (hpw q w'))
    · have : ∀ q, ∑ w, ∑ w', (∑ k, π k q) / M * (postWeight π q w * postWeight π q w')
          = (∑ k, π k q) / M := by
        intro q
        simp_rw [← mul_sum, hps q, mul_one, hps q, mul_one]
      rw [hcomm]
      simp_rw [this]
      rw [← sum_div, sum_comm]
      simp_rw [h1]
      simp [hM'.ne']
    · unfold expectedAlign
      simp_rw [sum_mul]
      rw [hcomm fun q w w' => (∑ k, π k q) / M * (postWeight π q w * postWeight π q w') * f w w']
      refine sum_congr rfl fun q _ => ?_
      rw [mul_sum]
      refine sum_congr rfl fun w _ => ?_
      rw [mul_sum]
      exact sum_congr rfl fun w' _ => by ring
  obtain ⟨c, hc0, hc1, hc2⟩ := key
  refine ⟨⟨c, hc0, hc1, hc2⟩, fun lo hi hf => ?_⟩
  rw [hc2]
  constructor
  · calc lo = ∑ w, ∑ w', c w w' * lo := by simp_rw [← sum_mul]; rw [hc1, one_mul]
      _ ≤ _ := sum_le_sum fun w _ => sum_le_sum fun w' _ =>
        mul_le_mul_of_nonneg_left (hf w w').1 (hc0 w w')
  · calc _ ≤ ∑ w, ∑ w', c w w' * hi := sum_le_sum fun w _ => sum_le_sum fun w' _ =>
        mul_le_mul_of_nonneg_left (hf w w').2 (hc0 w w')
      _ = hi := by simp_rw [← sum_mul]; rw [hc1, one_mul]

theorem prod_erase_list {ι : Type*} (g : ι → ℝ) : ∀ (l : List ι) (i : Fin l.length),
    ∏ j ∈ univ.erase i, g l[j] = ((l.eraseIdx i.1).map g).prod := by
  intro l
  induction l with
  | nil => intro i; exact i.elim0
  | cons x xs ih =>
    intro i
    have hite : ∏ j ∈ univ.erase i, g (x :: xs)[j] =
        ∏ j : Fin (xs.length + 1), if j = i then 1 else g (x :: xs)[j] := by
      refine Eq.trans ?_ (prod_erase univ (f := fun j : Fin (xs.length + 1) =>
        if j = i then 1 else g (x :: xs)[j]) (a := i) (if_pos rfl))
      exact prod_congr rfl fun j hj => by rw [if_neg (ne_of_mem_erase hj)]
    rw [hite, Fin.prod_univ_succ]
    refine Fin.cases ?_ (fun i => ?_) i
    · have : ∏ j : Fin xs.length, g xs[j] = (xs.map g).prod := by
        rw [← Fin.prod_univ_fun_getElem]
        rfl
      simp only [if_true, one_mul, Fin.succ_ne_zero, if_false]
      exact this
    · rw [if_neg (Fin.succ_ne_zero i).symm]
      have h2 : ∏ j : Fin xs.length, (if j.succ = i.succ then 1 else g (x :: xs)[j.succ]) =
          ∏ j ∈ univ.erase i, g xs[j] := by
        refine (prod_erase univ (f := fun j : Fin xs.length =>
          if j.succ = i.succ then 1 else g (x :: xs)[j.succ]) (a := i) (if_pos rfl)).symm.trans ?_
        refine prod_congr rfl fun j hj => ?_
        rw [if_neg fun h => ne_of_mem_erase hj (Fin.succ_injective _ h)]
        rfl
      rw [h2, ih i]
      simp [List.eraseIdx_cons_succ]

/-- C57: the normalised table used by `select_greedy` holds the choice probabilities of the extended
query. -/
theorem C57_greedy_probs (P : Fin M → Fin N → Fin N → ℝ) (prev : List (Fin N)) (c : Fin N) (w : Fin M)
    (q : Fin (prev.length + 1)) :
    greedyPQ P prev c w q / ∑ q', greedyPQ P prev c w q' =
      chooseProb (P w) (prev ++ [c]) (Fin.cast (by simp) q) := by
  have h : ∀ q, greedyPQ P prev c w q =
      ∏ j ∈ univ.erase (Fin.cast (by simp) q : Fin (prev ++ [c]).length),
        P w (prev ++ [c])[(Fin.cast (by simp) q : Fin (prev ++ [c]).length)] (prev ++ [c])[j] := by
    intro q
    rw [prod_erase_list (fun x => P w _ x)]
    unfold greedyPQ
    by_cases hq : q.1 < prev.length
    · rw [dif_pos hq]
      have e1 : (prev ++ [c])[(Fin.cast (by simp) q : Fin (prev ++ [c]).length)] = prev[q.1] := by
        simp [hq]
      rw [e1]
      have e2 : ((prev ++ [c]).eraseIdx q.1) = prev.eraseIdx q.1 ++ [c] :=
        List.eraseIdx_append_of_lt_length hq _
      simp only [Fin.val_cast, e2, List.map_append, List.prod_append, List.map_cons, List.map_nil,
        List.prod_cons, List.prod_nil, mul_one]
      congr 1
      by_cases h1 : prev.length > 1
      · rw [if_pos h1]
      · rw [if_neg h1]
        have h2 : prev.length = 1 := by omega
        obtain ⟨x, rfl⟩ := List.length_eq_one_iff.1 h2
        have : q.1 = 0 := by simpa using hq
        simp [this]
    · rw [dif_neg hq]
      have hq' : q.1 = prev.length := by omega
      have e1 : (prev ++ [c])[(Fin.cast (by simp) q : Fin (prev ++ [c]).length)] = c := by
        simp [hq']
      rw [e1]
      have e2 : (prev ++ [c]).eraseIdx prev.length = prev := by
        rw [List.eraseIdx_append_of_length_le le_rfl]
        simp
      simp only [Fin.val_cast, hq', e2]
  unfold chooseProb
  rw [h q]
  congr 1
  refine Fintype.sum_equiv (finCongr (by simp)) _ _ fun q' => ?_
  rw [h q']
  rfl

/-- C57: the greedy value of a candidate is the expected alignment of the extended query. -/
theorem C57_greedy_value (hM : 0 < M) (f : Fin M → Fin M → ℝ) (P : Fin M → Fin N → Fin N → ℝ)
    (hP : ∀ w a b, 0 < P w a b) (prev : List (Fin N)) (c : Fin N) :
    greedyAlign f P prev c = expectedAlign f (fun w (i : Fin (prev.length + 1)) =>
      chooseProb (P w) (prev ++ [c]) (Fin.cast (by simp) i)) ∧
    ∀ lo hi, (∀ w w', lo ≤ f w w' ∧ f w w' ≤ hi) →
      lo ≤ greedyAlign f P prev c ∧ greedyAlign f P prev c ≤ hi := by
  haveI : Nonempty (Fin M) := ⟨⟨0, hM⟩⟩
  have hpos : ∀ w q, 0 < greedyPQ P prev c w q := by
    intro w q
    unfold greedyPQ
    split
    · refine mul_pos ?_ (hP _ _ _)
      split
      · refine List.prod_pos fun x hx => ?_
        obtain ⟨y, -, rfl⟩ := List.mem_map.1 hx
        exact hP _ _ _
      · exact one_pos
    · refine List.prod_pos fun x hx => ?_
      obtain ⟨y, -, rfl⟩ := List.mem_map.1 hx
      exact hP _ _ _
  have hSum : ∀ w, 0 < ∑ q', greedyPQ P prev c w q' := fun w =>
    sum_pos (fun q _ => hpos w q) univ_nonempty
  have hc : ∀ w (q : Fin (prev.length + 1)), 0 < chooseProb (P w) (prev ++ [c]) (Fin.cast (by simp) q) := by
    intro w q
    rw [← C57_greedy_probs]
    exact div_pos (hpos w q) (hSum w)
  have h1 : ∀ w, ∑ q : Fin (prev.length + 1),
      chooseProb (P w) (prev ++ [c]) (Fin.cast (by simp) q) = 1 := by
    intro w
    simp_rw [← C57_greedy_probs]
    rw [← sum_div, div_self (hSum w).ne']
  have main : greedyAlign f P prev c = expectedAlign f (fun w (i : Fin (prev.length + 1)) =>
      chooseProb (P w) (prev ++ [c]) (Fin.cast (by simp) i)) := by
    unfold greedyAlign expectedAlign
    simp_rw [C57_greedy_probs]
    refine sum_congr rfl fun q _ => ?_
    exact answer_value f hM (fun w (i : Fin (prev.length + 1)) =>
      chooseProb (P w) (prev ++ [c]) (Fin.cast (by simp) i)) q
      (sum_pos (fun w _ => hc w q) univ_nonempty)
  refine ⟨main, ?_⟩
  rw [main]
  exact (C57_convex hM f _ hc h1).2

/-- C57: extending a one-element selection greedily uses the same value as choosing the pair directly. -/
theorem C57_greedy_is_pair (hM : 0 < M) (f : Fin M → Fin M → ℝ) (P : Fin M → Fin N → Fin N → ℝ)
    (hP : ∀ w a b, 0 < P w a b) (a c : Fin N) (h1 : ∀ w, P w a c + P w c a = 1) :
    greedyAlign f P [a] c = pairAlign f P a c := by
  rw [C57_pair_value hM f P hP]
  haveI : Nonempty (Fin M) := ⟨⟨0, hM⟩⟩
  have hg0 : ∀ w, greedyPQ P [a] c w 0 = P w a c := by
    intro w
    simp [greedyPQ]
  have hg1 : ∀ w, greedyPQ P [a] c w 1 = P w c a := by
    intro w
    simp [greedyPQ]
  have hs : ∀ w, ∑ q', greedyPQ P [a] c w q' = 1 := by
    intro w
    refine (Fin.sum_univ_two (fun q' : Fin 2 => greedyPQ P [a] c w q')).trans ?_
    rw [hg0, hg1, h1]
  unfold greedyAlign expectedAlign
  simp_rw [hs, div_one]
  have hS : ∀ a b, 0 < ∑ w, P w a b := fun a b => sum_pos (fun w _ => hP w a b) univ_nonempty
  rw [Fin.sum_univ_two]
  rw [← answer_value f hM (fun w => ![P w a c, P w c a]) 0 (by simpa using hS a c),
    ← answer_value f hM (fun w => ![P w a c, P w c a]) 1 (by simpa using hS c a)]
  refine (Fin.sum_univ_two (fun q : Fin 2 => (∑ w, ∑ w', greedyPQ P [a] c w' q * greedyPQ P [a] c w q * f w w')
    / (M * M : ℝ) / ((∑ w, greedyPQ P [a] c w q) / M))).trans ?_
  simp_rw [hg0, hg1]
  rfl

/-- C57: the greedy step returns a candidate of largest expected alignment; with an empty previous
selection or without candidates it raises. -/
theorem C57_greedy_max (f : Fin M → Fin M → ℝ) (P : Fin M → Fin N → Fin N → ℝ)
    (indicies prev : List (Fin N)) :
    (prev = [] → indicies ≠ [] → alignGreedy f P indicies prev = .error .indexError) ∧
    (indicies = [] → alignGreedy f P indicies prev = .error .valueError) ∧
    (prev ≠ [] → indicies ≠ [] → ∃ c, alignGreedy f P indicies prev = .ok (c, greedyAlign f P prev c) ∧
      c ∈ indicies ∧ ∀ c' ∈ indicies, greedyAlign f P prev c' ≤ greedyAlign f P prev c) := by
  refine ⟨fun h hi => by simp [alignGreedy, h, hi], fun hi => ?_, fun h hi => ?_⟩
  · by_cases h : prev = [] <;> simp [alignGreedy, h, hi, npArgmax, bind, Except.bind]
  obtain ⟨b, hb⟩ := npArgmax_isOk (l := indicies.map (greedyAlign f P prev)) (by simpa using hi)
  obtain ⟨m, h1, h2, -⟩ := npArgmax_spec hb
  obtain ⟨hlt, hm⟩ := List.getElem?_eq_some_iff.1 h1
  have hlt' : b < indicies.length := by simpa using hlt
  have hm' : greedyAlign f P prev indicies[b] = m := by
    rw [← hm]
    simp
  refine ⟨indicies[b], ?_, List.getElem_mem _, ?_⟩
  · unfold alignGreedy
    rw [if_neg h]
    simp only [bind, Except.bind, hb, List.getElem?_eq_getElem hlt', h1, hm']
    rfl
  · intro c' hc'
    rw [hm']
    exact h2 _ (List.mem_map_of_mem hc')

/-- C57 for the table the program builds: with the win probabilities of `likelihood_all_pairs` at the
sampled utilities, every pair whose utilities are inside the clipping range has a value between the
smallest and the largest alignment. -/
theorem C57_pair_bounds (hM : 0 < M) (f : Fin M → Fin M → ℝ) (sigma : ℝ) (hs : 0 < sigma)
    (w : Fin M → Fin N → ℝ) (a b : Fin N)
    (hr : ∀ k, |(w k a - w k b) / (Real.sqrt 2 * sigma)| ≤ 30) (lo hi : ℝ)
    (hf : ∀ k k', lo ≤ f k k' ∧ f k k' ≤ hi) :
    lo ≤ pairAlign f (fun k => prefAllPairs sigma (w k)) a b ∧
      pairAlign f (fun k => prefAllPairs sigma (w k)) a b ≤ hi := by
  have hp : ∀ k a b, 0 < prefAllPairs sigma (w k) a b := fun k a b => (C36_probability sigma hs _ a b).1
  rw [C57_pair_value hM f _ hp]
  refine (C57_convex hM f _ ?_ ?_).2 lo hi hf
  · intro k q
    fin_cases q
    · exact hp k a b
    · exact hp k b a
  · intro k
    rw [Fin.sum_univ_two]
    exact C36_complement_partial sigma (w k) a b (hr k)

/-- With all alignments equal to 1 every pair in range has value 1. -/
example : pairAlign (fun _ _ : Fin 3 => 1) (fun _ => prefAllPairs 1 (![0, 1] : Fin 2 → ℝ)) 0 1 = 1 := by
  have h := C57_pair_bounds (M := 3) (by norm_num) (fun _ _ => 1) 1 one_pos (fun _ => ![0, 1]) 0 1 (by
    intro _
    have : (1 : ℝ) ≤ Real.sqrt 2 := by
      rw [Real.one_le_sqrt]
      norm_num
    rw [abs_div, abs_of_nonneg (show 0 ≤ Real.sqrt 2 * 1 by positivity)]
    simp only [Matrix.cons_val_zero, Matrix.cons_val_one, mul_one, zero_sub, abs_neg, abs_one]
    rw [div_le_iff₀ (by positivity)]
    linarith) 1 1 (fun _ _ => ⟨le_rfl, le_rfl⟩)
  exact le_antisymm h.2 h.1

end Lop.Props
