import Verif.Props.SynthUser
import Verif.Spec.Sampling
import Mathlib.Data.Fin.VecNotation
import Mathlib.Algebra.BigOperators.Fin
import Mathlib.Tactic.NormNum
import Mathlib.Tactic.FinCases

/-! # C70 calibration objectives, C71 calibration matrix, C72 tuning loops -/

namespace Lop.Props

open Lop Lop.Spec

section C70

/-- C70: the rating objective is the squared distance between `p` and the average, over the pairs with
different utilities, of the probability that the noisy rating of the better one is the higher one; without
such a pair there is no value. -/
theorem C70_rate_obj (sigma : ℝ) (hs : 0 < sigma) (pairs : List (ℝ × ℝ)) (p : ℝ) :
    hcu2RateObj sigma (pairs.map fun q => q.1 - q.2) p =
      if pairs.filter (fun q => q.1 ≠ q.2) = [] then none
      else some ((average ((pairs.filter fun q => q.1 ≠ q.2).map fun q =>
        probAbove (max q.1 q.2) (min q.1 q.2) (Real.toNNReal (sigma ^ 2))) - p) ^ 2) := by
  have hv : Real.toNNReal (sigma ^ 2) ≠ 0 := by
    rw [Ne, Real.toNNReal_eq_zero, not_le]
    positivity
  have hsq : Real.sqrt ((Real.toNNReal (sigma ^ 2) : NNReal) : ℝ) = sigma := by
    rw [Real.coe_toNNReal _ (by positivity), Real.sqrt_sq hs.le]
  have hterm : ∀ q : ℝ × ℝ, Phi (|q.1 - q.2| * (1 / (Real.sqrt 2 * sigma))) =
      probAbove (max q.1 q.2) (min q.1 q.2) (Real.toNNReal (sigma ^ 2)) := by
    intro q
    rw [probAbove_eq _ _ _ hv, hsq, max_sub_min_eq_abs', mul_one_div]
  unfold hcu2RateObj
  rw [List.map_map]
  have := nanMean_map pairs (fun q : ℝ × ℝ => q.1 = q.2)
    (fun q => probAbove (max q.1 q.2) (min q.1 q.2) (Real.toNNReal (sigma ^ 2)))
  rw [show ((fun d => if |d| = 0 then none else some (Phi (|d| * (1 / (Real.sqrt 2 * sigma))))) ∘
      fun q : ℝ × ℝ => q.1 - q.2) = fun q : ℝ × ℝ => if q.1 = q.2 then none else
        some (probAbove (max q.1 q.2) (min q.1 q.2) (Real.toNNReal (sigma ^ 2))) from ?_, this]
  · split
    · rfl
    · rfl
  · funext q
    simp only [Function.comp, abs_eq_zero, sub_eq_zero, hterm]

/-- C70: the choice objective is the same with the probability that `p_human_choice` with precision `b` picks
the better item, provided every pair is a tie or differs by at least `10⁻⁷ / b`. -/
theorem C70_obj_partial (b : ℝ) (hb : 0 < b) (pairs : List (ℝ × ℝ)) (p : ℝ)
    (hsep : ∀ q ∈ pairs, q.1 = q.2 ∨ 1e-7 ≤ |q.1 - q.2| * b) :
    hcu2Obj b (pairs.map fun q => q.1 - q.2) p =
      if pairs.filter (fun q => q.1 ≠ q.2) = [] then none
      else some ((average ((pairs.filter fun q => q.1 ≠ q.2).map fun q =>
        boltzmann ![max q.1 q.2, min q.1 q.2] b 0) - p) ^ 2) := by
  have hterm : ∀ q : ℝ × ℝ, Real.exp (|q.1 - q.2| * b) / (1 + Real.exp (|q.1 - q.2| * b)) =
      boltzmann ![max q.1 q.2, min q.1 q.2] b 0 := by
    intro q
    unfold boltzmann
    rw [Fin.sum_univ_two]
    simp only [Matrix.cons_val_zero, Matrix.cons_val_one]
    rw [← max_sub_min_eq_abs', sub_mul, Real.exp_sub, mul_comm b, mul_comm b]
    have := Real.exp_pos (max q.1 q.2 * b)
    have := Real.exp_pos (min q.1 q.2 * b)
    field_simp
    ring
  unfold hcu2Obj
  rw [List.map_map]
  have := nanMean_map pairs (fun q : ℝ × ℝ => q.1 = q.2) (fun q => boltzmann ![max q.1 q.2, min q.1 q.2] b 0)
  rw [List.map_congr_left (g := fun q : ℝ × ℝ => if q.1 = q.2 then none else
      some (boltzmann ![max q.1 q.2, min q.1 q.2] b 0)) ?_, this]
  · split
    · rfl
    · rfl
  · intro q hq
    simp only [Function.comp]
    rw [hterm q]
    by_cases h : q.1 = q.2
    · rw [if_pos h, if_pos]
      rw [← hterm q, h]
      norm_num
    · rw [if_neg h, if_neg]
      rw [not_lt, ← hterm q]
      have h1 := (hsep q hq).resolve_left h
      have h2 := Real.add_one_le_exp (|q.1 - q.2| * b)
      have h3 := Real.exp_pos (|q.1 - q.2| * b)
      rw [le_div_iff₀ (by linarith)]
      norm_num at h1 ⊢
      nlinarith

/-- C70 refuted without separation: two different utilities closer than the threshold are not counted, here
there is no value at all although the pair has a better item. -/
theorem C70_obj_counterexample (b d p : ℝ) (_hd : d ≠ 0) (h : |d| * b < 1e-9) : hcu2Obj b [d] p = none := by
  unfold hcu2Obj nanMean
  have h3 := Real.exp_pos (|d| * b)
  have h4 : Real.exp (|d| * b) / (1 + Real.exp (|d| * b)) < 0.50000001 := by
    rw [div_lt_iff₀ (by linarith)]
    have h5 : Real.exp (|d| * b) ≤ Real.exp (1e-9 : ℝ) := Real.exp_le_exp.2 h.le
    have h6 : Real.exp (1e-9 : ℝ) < 1 / (1 - 1e-9) := Real.exp_bound_div_one_sub_of_interval' (by norm_num) (by norm_num)
    have h7 : Real.exp (|d| * b) < 1 / (1 - 1e-9) := lt_of_le_of_lt h5 h6
    norm_num at h7 ⊢
    linarith
  simp [h4]

/-- Non-trivial separated pairs: a tie and a difference of 1. -/
example : ∀ q ∈ [((2 : ℝ), (2 : ℝ)), (3, 4)], q.1 = q.2 ∨ 1e-7 ≤ |q.1 - q.2| * (5 : ℝ) := by
  intro q hq
  simp only [List.mem_cons, List.not_mem_nil, or_false] at hq
  rcases hq with rfl | rfl
  · exact .inl rfl
  · right; norm_num

/-- The counterexample's hypotheses: utilities differing by `10⁻¹⁰`. -/
example : (1e-10 : ℝ) ≠ 0 ∧ |(1e-10 : ℝ)| * 1 < 1e-9 := by
  rw [abs_of_pos (by norm_num)]
  norm_num

end C70

section C71

/-- C71: if all environments have equally many planning problems, the calibration matrix holds exactly one
row for every problem, in order, with that problem's sampled and rescaled utilities. -/
theorem C71_equal_sizes (e0 : List (List ℝ)) (rest : List (List (List ℝ))) (k b : ℝ)
    (samp : Nat → Nat → List Nat) (heq : ∀ e ∈ rest, e.length = e0.length) :
    ∃ F, calibMatrix (e0 :: rest) k b samp = .ok F ∧ F.length = (e0 :: rest).length * e0.length ∧
      (∀ row ∈ F, row ≠ none) ∧
      ∀ (i j : Nat) env prob, (e0 :: rest)[i]? = some env → env[j]? = some prob →
        F[i * e0.length + j]? =
          some (some ((samp i j).filterMap fun s => (prob[s]?).map fun f => f * k + b)) := by
  obtain ⟨F, h1, h2, h3⟩ := fillEnvs_spec e0.length k b samp (e0 :: rest) 0
    (List.replicate ((e0 :: rest).length * e0.length) none) (by
      intro e he
      rcases List.mem_cons.1 he with rfl | he
      · rfl
      · exact heq e he) (by simp)
  have hlen : F.length = (e0 :: rest).length * e0.length := by rw [h2, List.length_replicate]
  have hget : ∀ (i j : Nat) env prob, (e0 :: rest)[i]? = some env → env[j]? = some prob →
      F[i * e0.length + j]? =
        some (some ((samp i j).filterMap fun s => (prob[s]?).map fun f => f * k + b)) := by
    intro i j env prob he hp
    have := h3.1 i j env prob he hp
    simpa [calibRow] using this
  refine ⟨F, h1, hlen, ?_, hget⟩
  intro row hrow
  obtain ⟨idx, hidx⟩ := List.mem_iff_getElem?.1 hrow
  have hlt : idx < (e0 :: rest).length * e0.length := hlen ▸ (List.getElem?_eq_some_iff.1 hidx).1
  have hn0 : 0 < e0.length := by
    rcases Nat.eq_zero_or_pos e0.length with h | h
    · rw [h] at hlt; simp at hlt
    · exact h
  have hi : idx / e0.length < (e0 :: rest).length := by
    rw [Nat.div_lt_iff_lt_mul hn0]
    exact hlt
  have henv : ((e0 :: rest)[idx / e0.length]'hi).length = e0.length := by
    rcases List.mem_cons.1 (List.getElem_mem hi) with h | h
    · rw [h]
    · exact heq _ h
  have hj : idx % e0.length < ((e0 :: rest)[idx / e0.length]'hi).length := by
    rw [henv]
    exact Nat.mod_lt _ hn0
  have := hget _ _ _ _ (List.getElem?_eq_getElem hi) (List.getElem?_eq_getElem hj)
  rw [Nat.div_add_mod'] at this
  rw [this] at hidx
  cases hidx
  simp

/-- Two environments with two problems each. -/
example : ∃ F, calibMatrix [[[1, 2], [3]], [[4], [5, 6]]] 1 0 (fun _ _ => [0]) = .ok F ∧ F.length = 4 := by
  obtain ⟨F, h1, h2, -⟩ := C71_equal_sizes [[1, 2], [3]] [[[4], [5, 6]]] 1 0 (fun _ _ => [0]) (by simp)
  exact ⟨F, h1, h2⟩

/-- C71 refuted: a second environment with more problems than the first raises an `IndexError`. -/
theorem C71_larger_counterexample (e0 e1 : List (List ℝ)) (k b : ℝ) (samp : Nat → Nat → List Nat)
    (h : e0.length < e1.length) : calibMatrix [e0, e1] k b samp = .error .indexError := by
  have hF : calibMatrix [e0, e1] k b samp =
      fillEnvs e0.length k b samp 0 [e0, e1] (List.replicate (2 * e0.length) none) := rfl
  rw [hF]
  unfold fillEnvs
  obtain ⟨F, h1, h2, -⟩ := fillEnv_spec e0.length 0 k b samp e0 0 (List.replicate (2 * e0.length) none)
    (by simp; omega)
  rw [h1]
  simp only [bind, Except.bind]
  unfold fillEnvs
  rw [fillEnv_overflow e0.length 1 k b samp e1 0 F (by rw [h2]; simp; omega) (by rw [h2]; simp; omega)]
  rfl

/-- C71 refuted: a second environment with fewer problems leaves uninitialised rows in the matrix. -/
theorem C71_smaller_counterexample (e0 e1 : List (List ℝ)) (k b : ℝ) (samp : Nat → Nat → List Nat)
    (h : e1.length < e0.length) :
    ∃ F, calibMatrix [e0, e1] k b samp = .ok F ∧
      ∀ idx, e0.length + e1.length ≤ idx → idx < 2 * e0.length → F[idx]? = some none := by
  have hF : calibMatrix [e0, e1] k b samp =
      fillEnvs e0.length k b samp 0 [e0, e1] (List.replicate (2 * e0.length) none) := rfl
  obtain ⟨F, h1, h2, h3⟩ := fillEnv_spec e0.length 0 k b samp e0 0 (List.replicate (2 * e0.length) none)
    (by simp; omega)
  obtain ⟨F', h1', h2', h3'⟩ := fillEnv_spec e0.length 1 k b samp e1 0 F (by rw [h2]; simp; omega)
  refine ⟨F', ?_, fun idx hi1 hi2 => ?_⟩
  · rw [hF]
    unfold fillEnvs
    rw [h1]
    simp only [bind, Except.bind]
    unfold fillEnvs
    rw [h1']
    rfl
  · rw [h3'.2 idx (by right; omega), h3.2 idx (by right; omega), List.getElem?_replicate, if_pos hi2]

/-- C71, error branches: without environments, or with an environment that has no planning problem, `min` of an empty list raises
`ValueError`; with a planning problem in every environment the number of paths is computed. -/
theorem C71_paths_refused (envs : List (List (List ℝ))) :
    (envs = [] ∨ [] ∈ envs → minPaths envs = .error .valueError) ∧
    (envs ≠ [] → [] ∉ envs → ∃ m, minPaths envs = .ok m) := by
  have good : ∀ l : List (List (List ℝ)), [] ∉ l →
      ∃ r, l.mapM (fun env => pyMinNat (env.map List.length)) = .ok r ∧ r.length = l.length := by
    intro l
    induction l with
    | nil => intro _; exact ⟨[], rfl, rfl⟩
    | cons e l ih =>
      intro h
      obtain ⟨r, hr, hlen⟩ := ih fun h' => h (List.mem_cons_of_mem _ h')
      cases e with
      | nil => exact absurd (List.mem_cons_self ..) h
      | cons p e =>
        refine ⟨(List.map List.length e).foldl min p.length :: r, ?_, by simp [hlen]⟩
        rw [List.mapM_cons, hr]
        rfl
  have bad : ∀ l : List (List (List ℝ)), [] ∈ l →
      l.mapM (fun env => pyMinNat (env.map List.length)) = .error .valueError := by
    intro l
    induction l with
    | nil => intro h; simp at h
    | cons e l ih =>
      intro h
      rw [List.mapM_cons]
      cases e with
      | nil => rfl
      | cons p e =>
        rw [ih (by simpa using h)]
        rfl
  refine ⟨?_, fun h0 h => ?_⟩
  · rintro (rfl | h)
    · rfl
    · unfold minPaths
      rw [bad envs h]
      rfl
  · obtain ⟨r, hr, hlen⟩ := good envs h
    unfold minPaths
    rw [hr]
    cases r with
    | nil => exact absurd (List.length_eq_zero_iff.1 hlen.symm) h0
    | cons x r => exact ⟨_, rfl⟩

example : minPaths [[[1, 2]], []] = .error .valueError := (C71_paths_refused _).1 (.inr (by simp))

/-- C71: the number of paths sampled per problem is at most 500 and at most the number of paths of every problem;
it is 500 or the number of paths of some problem. -/
theorem C71_paths (envs : List (List (List ℝ))) (m : Nat) (h : minPaths envs = .ok m) :
    m ≤ 500 ∧ (∀ env ∈ envs, ∀ prob ∈ env, m ≤ prob.length) ∧
      (m = 500 ∨ ∃ env ∈ envs, ∃ prob ∈ env, m = prob.length) := by
  have mins : ∀ (l : List Nat) (v : Nat), pyMinNat l = .ok v → v ∈ l ∧ ∀ x ∈ l, v ≤ x := by
    have fold : ∀ (l : List Nat) (x : Nat), l.foldl min x ∈ x :: l ∧ ∀ y ∈ x :: l, l.foldl min x ≤ y := by
      intro l
      induction l with
      | nil => intro x; simp
      | cons a l ih =>
        intro x
        obtain ⟨h1, h2⟩ := ih (min x a)
        have hle := h2 _ (List.mem_cons_self ..)
        rw [List.foldl_cons]
        refine ⟨?_, ?_⟩
        · rcases List.mem_cons.1 h1 with h1 | h1
          · rw [h1]
            rcases min_choice x a with h | h <;> rw [h] <;> simp
          · exact List.mem_cons_of_mem _ (List.mem_cons_of_mem _ h1)
        · intro y hy
          rcases List.mem_cons.1 hy with rfl | hy
          · exact hle.trans (min_le_left ..)
          rcases List.mem_cons.1 hy with rfl | hy
          · exact hle.trans (min_le_right ..)
          · exact h2 y (List.mem_cons_of_mem _ hy)
    intro l v h
    cases l with
    | nil => cases h
    | cons x l =>
      have := Except.ok.inj h
      rw [← this]
      exact fold l x
  have maps : ∀ (l : List (List (List ℝ))) (r : List Nat),
      l.mapM (fun env => pyMinNat (env.map List.length)) = .ok r →
      (∀ env ∈ l, ∃ v ∈ r, pyMinNat (env.map List.length) = .ok v) ∧
        ∀ v ∈ r, ∃ env ∈ l, pyMinNat (env.map List.length) = .ok v := by
    intro l
    induction l with
    | nil =>
      intro r h
      rw [List.mapM_nil] at h
      have := Except.ok.inj h
      subst this
      simp
    | cons e l ih =>
      intro r h
      rw [List.mapM_cons] at h
      cases he : pyMinNat (e.map List.length) with
      | error x => rw [he] at h; cases h
      | ok v =>
        rw [he] at h
        cases hl : l.mapM (fun env => pyMinNat (env.map List.length)) with
        | error x => rw [hl] at h; cases h
        | ok vs =>
          rw [hl] at h
          have hr := Except.ok.inj h
          subst hr
          obtain ⟨h1, h2⟩ := ih vs hl
          refine ⟨?_, ?_⟩
          · intro env hm
            rcases List.mem_cons.1 hm with rfl | hm
            · exact ⟨v, List.mem_cons_self .., he⟩
            · obtain ⟨v', h3, h4⟩ := h1 env hm
              exact ⟨v', List.mem_cons_of_mem _ h3, h4⟩
          · intro v' hm
            rcases List.mem_cons.1 hm with rfl | hm
            · exact ⟨e, List.mem_cons_self .., he⟩
            · obtain ⟨env, h3, h4⟩ := h2 v' hm
              exact ⟨env, List.mem_cons_of_mem _ h3, h4⟩
  unfold minPaths at h
  cases hp : envs.mapM (fun env => pyMinNat (env.map List.length)) with
  | error e => rw [hp] at h; cases h
  | ok per =>
    rw [hp] at h
    cases hq : pyMinNat per with
    | error e =>
      simp only [bind, Except.bind, hq] at h
      cases h
    | ok v =>
      simp only [bind, Except.bind, hq] at h
      have hm := Except.ok.inj h
      obtain ⟨hv1, hv2⟩ := mins _ _ hq
      obtain ⟨h1, h2⟩ := maps _ _ hp
      subst hm
      refine ⟨min_le_right .., fun env he prob hpr => ?_, ?_⟩
      · obtain ⟨v', h3, h4⟩ := h1 env he
        exact (min_le_left ..).trans ((hv2 v' h3).trans ((mins _ _ h4).2 _ (List.mem_map_of_mem hpr)))
      · rcases min_choice v 500 with h | h
        · right
          obtain ⟨env, he, h4⟩ := h2 v hv1
          obtain ⟨prob, hpr, hl⟩ := List.mem_map.1 (mins _ _ h4).1
          exact ⟨env, he, prob, hpr, by rw [h, hl]⟩
        · exact .inl h

example : minPaths [[[1, 2], [3]], [[4, 5, 6], [5, 6]]] = .ok 1 := rfl

/-- C71, error branch: if some planning problem has a single path there is no pair to calibrate on, and `learn_beta` raises
`IndexError` (all problems having paths, all environments having problems). -/
theorem C71_single_path (u : HumanUser) (envs : List (List (List ℝ))) (samp : Nat → Nat → Nat → List Nat)
    (os ob : List (Option (List ℝ)) → ℝ) (hne : ∀ env ∈ envs, env ≠ [] ∧ [] ∉ env)
    (h : ∃ env ∈ envs, ∃ prob ∈ env, prob.length = 1) :
    hcu2Learn u envs samp os ob = .error .indexError := by
  obtain ⟨env, he, prob, hp, hl⟩ := h
  obtain ⟨m, hm⟩ := (C71_paths_refused envs).2 (List.ne_nil_of_mem he) fun h0 => (hne _ h0).1 rfl
  have hm1 : m < 2 := by
    have := (C71_paths envs m hm).2.1 env he prob hp
    omega
  have hany : (envs.any fun e => e.isEmpty || e.any List.isEmpty) = false := by
    rw [List.any_eq_false]
    intro e hmem
    obtain ⟨h1, h2⟩ := hne e hmem
    simp only [Bool.or_eq_true, List.isEmpty_iff, List.any_eq_true, not_or, not_exists, not_and]
    exact ⟨h1, fun x hx hx0 => h2 (hx0 ▸ hx)⟩
  have hr : ∃ r, utilRange envs = .ok r := by
    unfold utilRange
    rw [hany, if_neg (by simp)]
    split
    · rename_i hnil
      exfalso
      obtain ⟨y, hy⟩ : ∃ y, y ∈ prob := List.exists_mem_of_ne_nil _ (by rintro rfl; simp at hl)
      have : y ∈ envs.flatMap fun e => e.flatMap id := by
        simp only [List.mem_flatMap, id]
        exact ⟨env, he, prob, hp, hy⟩
      rw [hnil] at this
      cases this
    · exact ⟨_, rfl⟩
  obtain ⟨⟨lo, hi⟩, hr⟩ := hr
  have henv : ∀ (n0 i : Nat) (k b : ℝ) (sp : Nat → Nat → List Nat) (l : List (List ℝ)) (j : Nat) F e,
      fillEnv n0 i k b sp j l F = .error e → e = .indexError := by
    intro n0 i k b sp l
    induction l with
    | nil => intro j F e h; simp [fillEnv] at h
    | cons a l ih =>
      intro j F e h
      simp only [fillEnv, writeRow, bind, Except.bind] at h
      split at h
      · rename_i h1
        split at h1
        · cases h1
        · cases h1
          cases h
          rfl
      · exact ih _ _ _ h
  have henvs : ∀ (n0 : Nat) (k b : ℝ) (sp : Nat → Nat → List Nat) (l : List (List (List ℝ))) (i : Nat) F e,
      fillEnvs n0 k b sp i l F = .error e → e = .indexError := by
    intro n0 k b sp l
    induction l with
    | nil => intro i F e h; simp [fillEnvs] at h
    | cons a l ih =>
      intro i F e h
      simp only [fillEnvs, bind, Except.bind] at h
      split at h
      · rename_i h1
        cases h
        exact henv _ _ _ _ _ _ _ _ _ h1
      · exact ih _ _ _ h
  unfold hcu2Learn
  simp only [hm, hr, bind, Except.bind]
  cases hF : calibMatrix envs ((getKB u.bot u.top lo hi).getD (0, 0)).1 ((getKB u.bot u.top lo hi).getD (0, 0)).2
      (samp m) with
  | error e =>
    simp only [Except.error.injEq]
    unfold calibMatrix at hF
    split at hF
    · cases hF
      rfl
    · exact henvs _ _ _ _ _ _ _ _ hF
  | ok F => simp only [if_pos hm1]

/-- Two problems, the second with one path. -/
example (u : HumanUser) (samp : Nat → Nat → Nat → List Nat) (os ob : List (Option (List ℝ)) → ℝ) :
    hcu2Learn u [[[1, 2], [3]]] samp os ob = .error .indexError :=
  C71_single_path u _ samp os ob (by simp) ⟨_, List.mem_cons_self .., [3], by simp, rfl⟩

end C71

section C72

/-- C72: an accepted value comes from one of at most ten optimiser calls, all earlier of which missed the
error bound 0.02; its own error is at most 0.02, unless it is `nan` (then it was the tenth). -/
theorem C72_accepted (opt : Nat → MinRes) (x : ℝ) (h : tune opt = .ok x) :
    ∃ i < 10, (opt i).x = x ∧ (∀ v, (opt i).val = some v → v ≤ 0.02) ∧ ((opt i).val = none → i = 9) ∧
      ∀ j < i, ∀ v, (opt j).val = some v → 0.02 ≤ v := by
  obtain ⟨i, -, hi, h1, h2, h3⟩ := tuneLoop_spec opt 9 0 (opt 0)
  unfold tune at h
  simp only [h1] at h
  refine ⟨i, by omega, ?_, ?_, ?_, fun j hj => h2 j (Nat.zero_le _) hj⟩
  · split at h
    · split at h
      · cases h
      · exact Except.ok.inj h
    · exact Except.ok.inj h
  · intro v hv
    rw [hv] at h
    simp only at h
    split at h
    · cases h
    · next hn => exact not_lt.1 hn
  · intro hn
    rcases h3 with h3 | ⟨v, hv, -⟩
    · omega
    · rw [hn] at hv; cases hv

/-- C72: the call raises exactly if none of the first nine results has error below 0.02 and the tenth has
error above 0.02. -/
theorem C72_rejected (opt : Nat → MinRes) :
    tune opt = .error .exception ↔
      (∀ j < 9, ∀ v, (opt j).val = some v → 0.02 ≤ v) ∧ ∃ v, (opt 9).val = some v ∧ 0.02 < v := by
  obtain ⟨i, -, hi, h1, h2, h3⟩ := tuneLoop_spec opt 9 0 (opt 0)
  unfold tune
  simp only [h1]
  constructor
  · intro h
    split at h
    · next v hv =>
      split at h
      · next hgt =>
        have hi9 : i = 9 := by
          rcases h3 with h3 | ⟨w, hw, hlt⟩
          · omega
          · rw [hv] at hw
            cases hw
            exact absurd hlt (not_lt.2 hgt.le)
        subst hi9
        exact ⟨fun j hj => h2 j (Nat.zero_le _) hj, v, hv, hgt⟩
      · cases h
    · cases h
  · rintro ⟨ha, v, hv, hgt⟩
    have hi9 : i = 9 := by
      rcases h3 with h3 | ⟨w, hw, hlt⟩
      · omega
      · by_contra hne
        exact absurd hlt (not_lt.2 (ha i (by omega) w hw))
    subst hi9
    rw [hv]
    simp only
    rw [if_pos hgt]

/-- Both cases occur. -/
example : tune (fun i => ⟨i, some (if i = 3 then 0.01 else 1)⟩) = .ok 3 ∧
    tune (fun i => ⟨i, some 1⟩) = .error .exception := by
  constructor
  · simp [tune, tuneLoop]
    norm_num
  · rw [C72_rejected]
    exact ⟨fun j _ v hv => by cases hv; norm_num, 1, rfl, by norm_num⟩

/-- C72 refuted: if the objective is never a number (e.g. there are no queries), the last value is accepted. -/
theorem C72_nan_counterexample (xs : Nat → ℝ) : tune (fun i => ⟨xs i, none⟩) = .ok (xs 9) := by
  simp [tune, tuneLoop]

/-- C72 refuted: a calibration that fails on the ratings has already changed the user. -/
theorem C72_failed_update_counterexample (u : HumanUser) (ys : List ℝ) (Q : Nat) (hy : ys ≠ []) (hQ : Q ≤ ys.length)
    (beta : ℝ) :
    humanLearnBeta u ys Q (fun _ => ⟨beta, some 0⟩) (fun _ => ⟨0, some 1⟩) =
      ({ u with k := 4, b := 0, beta := beta }, some .exception) := by
  have h1 : tune (fun _ => ⟨beta, some 0⟩) = .ok beta := by
    simp [tune, tuneLoop]
    norm_num
  have h2 : tune (fun _ => ⟨0, some 1⟩) = .error .exception := by
    rw [C72_rejected]
    exact ⟨fun j _ v hv => by cases hv; norm_num, 1, rfl, by norm_num⟩
  unfold humanLearnBeta
  rw [if_neg hy]
  simp only
  rw [if_neg fun h => (Nat.choose_pos hQ).ne' ((sampleQsCount_eq_zero _).1 h)]
  simp only [h1, h2]

/-- C72: without rewards the calibration raises `ValueError` (`np.max` of an empty array) and changes nothing. -/
theorem C72_no_rewards (u : HumanUser) (Q : Nat) (ob os : Nat → MinRes) :
    humanLearnBeta u [] Q ob os = (u, some .valueError) := by
  rw [humanLearnBeta, if_pos rfl]

/-- C72 refuted: with fewer rewards than a query has items the calibration raises `ValueError`, after slope and offset have
been overwritten. -/
theorem C72_too_few_counterexample (u : HumanUser) (ys : List ℝ) (Q : Nat) (ob os : Nat → MinRes) (hy : ys ≠ [])
    (hQ : ys.length < Q) : humanLearnBeta u ys Q ob os = ({ u with k := 4, b := 0 }, some .valueError) := by
  unfold humanLearnBeta
  rw [if_neg hy]
  simp only
  rw [if_pos ((sampleQsCount_eq_zero _).2 (Nat.choose_eq_zero_of_lt hQ))]

/-- One reward, queries of two: a user with another slope has lost it. -/
example (ob os : Nat → MinRes) : ∃ u u' : HumanUser, humanLearnBeta u [1] 2 ob os = (u', some .valueError) ∧ u'.k ≠ u.k :=
  ⟨{ k := 7 }, _, C72_too_few_counterexample { k := 7 } [1] 2 ob os (by simp) (by simp), by norm_num⟩

/-- C72, what holds: on success there was a query, and exactly slope, offset, `beta` and `sigma` have changed. -/
theorem C72_success_partial (u u' : HumanUser) (ys : List ℝ) (Q : Nat) (ob os : Nat → MinRes)
    (h : humanLearnBeta u ys Q ob os = (u', none)) :
    ys ≠ [] ∧ Q ≤ ys.length ∧ tune ob = .ok u'.beta ∧ tune os = .ok u'.sigma ∧ u'.bot = u.bot ∧ u'.top = u.top := by
  unfold humanLearnBeta at h
  split at h
  · cases h
  · next hy =>
    simp only at h
    split at h
    · cases h
    · next hC =>
      split at h
      · cases h
      · next beta hb =>
        split at h
        · cases h
        · next sigma hs =>
          cases h
          refine ⟨hy, ?_, hb, hs, rfl, rfl⟩
          by_contra hlt
          exact hC ((sampleQsCount_eq_zero _).2 (Nat.choose_eq_zero_of_lt (not_le.1 hlt)))

end C72

end Lop.Props
