import Verif.Model.SynthUser
import Verif.Spec.SynthUser
import Verif.Proofs.Normal
import Verif.Proofs.Basic
import Verif.Proofs.BestProb
import Mathlib.MeasureTheory.Group.Convolution
import Mathlib.Tactic.Linarith
import Mathlib.Tactic.Ring
import Mathlib.Tactic.FieldSimp
import Mathlib.Tactic.Positivity

/-! Helper lemmas for C60, C62, C70, C71, C72. -/

namespace Lop

open MeasureTheory ProbabilityTheory Spec

theorem sigmoid_pos (x k b : ℝ) : 0 < sigmoid x k b := by unfold sigmoid; positivity

theorem sigmoid_lt_one (x k b : ℝ) : sigmoid x k b < 1 := by
  unfold sigmoid
  rw [div_lt_one (by positivity)]
  linarith [Real.exp_pos (-(k * x + b))]

theorem sigmoid_lt_iff (x y k b k' b' : ℝ) : sigmoid x k b < sigmoid y k' b' ↔ k * x + b < k' * y + b' := by
  unfold sigmoid
  rw [div_lt_div_iff_of_pos_left one_pos (by positivity) (by positivity), add_lt_add_iff_left,
    Real.exp_lt_exp, neg_lt_neg_iff]

theorem sigmoid_le_iff (x y k b k' b' : ℝ) : sigmoid x k b ≤ sigmoid y k' b' ↔ k * x + b ≤ k' * y + b' := by
  rw [← not_lt, ← not_lt, sigmoid_lt_iff]

theorem sigmoid_logit (q : ℝ) (h0 : 0 < q) (h1 : q < 1) (x k b : ℝ)
    (h : k * x + b = Real.log q - Real.log (1 - q)) : sigmoid x k b = q := by
  unfold sigmoid
  rw [h, neg_sub, Real.exp_sub, Real.exp_log h0, Real.exp_log (by linarith)]
  field_simp
  ring

theorem probAbove_eq (y1 y2 : ℝ) (v : NNReal) (hv : v ≠ 0) :
    probAbove y1 y2 v = Phi ((y1 - y2) / (Real.sqrt 2 * Real.sqrt v)) := by
  have hs : 0 < Real.sqrt 2 * Real.sqrt v := by positivity
  have hmap : ((gaussianReal y1 v).prod (gaussianReal y2 v)).map (fun q => q.2 - q.1) =
      gaussianReal (y2 - y1) (v + v) := by
    have h1 : (fun q : ℝ × ℝ => q.2 - q.1) = (fun q : ℝ × ℝ => q.1 + q.2) ∘ (Prod.map (fun x : ℝ => -x) id) := by
      funext q
      simp [sub_eq_neg_add]
    rw [h1, ← Measure.map_map (by fun_prop) (by fun_prop), ← Measure.map_prod_map _ _ (by fun_prop) (by fun_prop),
      gaussianReal_map_neg, Measure.map_id]
    have := gaussianReal_conv_gaussianReal (m₁ := -y1) (m₂ := y2) (v₁ := v) (v₂ := v)
    rw [Measure.conv] at this
    rw [this]
    congr 1
    ring
  have hset : {q : ℝ × ℝ | q.2 < q.1} = (fun q : ℝ × ℝ => q.2 - q.1) ⁻¹' Set.Iio 0 := by
    ext q
    simp
  unfold probAbove
  rw [hset, ← map_measureReal_apply (by fun_prop) measurableSet_Iio, hmap]
  have hvv : v + v ≠ 0 := by
    intro h
    exact hv (by simpa using h)
  have := nullSingletonClass_gaussianReal (μ := y2 - y1) hvv
  have hio : (gaussianReal (y2 - y1) (v + v)).real (Set.Iio 0) =
      (gaussianReal (y2 - y1) (v + v)).real (Set.Iic 0) := by
    rw [measureReal_def, measureReal_def, Iio_ae_eq_Iic.measure_eq]
  rw [hio, gaussian_below_zero _ _ hvv]
  congr 1
  rw [← Real.sqrt_mul (by norm_num)]
  congr 1
  · ring
  · congr 1
    push_cast
    ring

theorem foldl_min_max_spec (xs : List ℝ) (x : ℝ) :
    xs.foldl min x ∈ x :: xs ∧ xs.foldl max x ∈ x :: xs ∧
      ∀ y ∈ x :: xs, xs.foldl min x ≤ y ∧ y ≤ xs.foldl max x := by
  have hmin : ∀ (xs : List ℝ) (x : ℝ), xs.foldl min x ∈ x :: xs ∧ ∀ y ∈ x :: xs, xs.foldl min x ≤ y := by
    intro xs
    induction xs with
    | nil => intro x; simp
    | cons a l ih =>
      intro x
      obtain ⟨h1, h2⟩ := ih (min x a)
      rw [List.foldl_cons]
      constructor
      · rcases List.mem_cons.1 h1 with h | h
        · rw [h]
          rcases min_choice x a with h | h <;> simp [h]
        · simp [h]
      · intro y hy
        have h3 := h2 _ List.mem_cons_self
        rcases List.mem_cons.1 hy with rfl | hy
        · exact h3.trans (min_le_left _ _)
        · rcases List.mem_cons.1 hy with rfl | hy
          · exact h3.trans (min_le_right _ _)
          · exact h2 y (List.mem_cons_of_mem _ hy)
  have hmax : ∀ (xs : List ℝ) (x : ℝ), xs.foldl max x ∈ x :: xs ∧ ∀ y ∈ x :: xs, y ≤ xs.foldl max x := by
    intro xs
    induction xs with
    | nil => intro x; simp
    | cons a l ih =>
      intro x
      obtain ⟨h1, h2⟩ := ih (max x a)
      rw [List.foldl_cons]
      constructor
      · rcases List.mem_cons.1 h1 with h | h
        · rw [h]
          rcases max_choice x a with h | h <;> simp [h]
        · simp [h]
      · intro y hy
        have h3 := h2 _ List.mem_cons_self
        rcases List.mem_cons.1 hy with rfl | hy
        · exact (le_max_left _ _).trans h3
        · rcases List.mem_cons.1 hy with rfl | hy
          · exact (le_max_right _ _).trans h3
          · exact h2 y (List.mem_cons_of_mem _ hy)
  exact ⟨(hmin xs x).1, (hmax xs x).1, fun y hy => ⟨(hmin xs x).2 y hy, (hmax xs x).2 y hy⟩⟩

theorem utilRange_spec {envs : List (List (List ℝ))} {lo hi : ℝ} (h : utilRange envs = .ok (lo, hi)) :
    lo ∈ envs.flatMap (fun e => e.flatMap id) ∧ hi ∈ envs.flatMap (fun e => e.flatMap id) ∧
      ∀ y ∈ envs.flatMap (fun e => e.flatMap id), lo ≤ y ∧ y ≤ hi := by
  unfold utilRange at h
  split at h
  · cases h
  · split at h
    · cases h
    · next x xs hx =>
      cases h
      rw [hx]
      exact foldl_min_max_spec xs x

theorem nanMean_map {β : Type*} (l : List β) (c : β → Prop) [DecidablePred c] (g : β → ℝ) :
    nanMean (l.map fun q => if c q then none else some (g q)) =
      if l.filter (fun q => ¬ c q) = [] then none
      else some (average ((l.filter fun q => ¬ c q).map g)) := by
  have h : (l.map fun q => if c q then none else some (g q)).filterMap id =
      (l.filter fun q => ¬ c q).map g := by
    induction l with
    | nil => rfl
    | cons a l ih =>
      by_cases ha : c a
      · simpa [ha] using ih
      · simpa [ha] using ih
  unfold nanMean
  simp only [h, List.map_eq_nil_iff]
  rfl

/-- The row written for problem `prob`. -/
noncomputable def calibRow (k b : ℝ) (s : List Nat) (prob : List ℝ) : List ℝ :=
  s.filterMap fun s => (prob[s]?).map fun f => f * k + b

theorem fillEnv_spec (n0 i : Nat) (k b : ℝ) (samp : Nat → Nat → List Nat) (probs : List (List ℝ)) (j : Nat)
    (F : List (Option (List ℝ))) (h : i * n0 + j + probs.length ≤ F.length) :
    ∃ F', fillEnv n0 i k b samp j probs F = .ok F' ∧ F'.length = F.length ∧
      (∀ (q : Nat) prob, probs[q]? = some prob →
        F'[i * n0 + j + q]? = some (some (calibRow k b (samp i (j + q)) prob))) ∧
      ∀ idx, idx < i * n0 + j ∨ i * n0 + j + probs.length ≤ idx → F'[idx]? = F[idx]? := by
  induction probs generalizing j F with
  | nil => exact ⟨F, rfl, rfl, by simp, fun _ _ => rfl⟩
  | cons p rest ih =>
    simp only [List.length_cons] at h
    obtain ⟨F', h1, h2, h3, h4⟩ := ih (j + 1) (F.set (i * n0 + j) (some (calibRow k b (samp i j) p)))
      (by rw [List.length_set]; omega)
    refine ⟨F', ?_, by rw [h2, List.length_set], ?_, ?_⟩
    · unfold fillEnv writeRow
      rw [if_pos (by omega)]
      exact h1
    · intro q prob hq
      cases q with
      | zero =>
        cases hq
        rw [h4 _ (by left; omega), Nat.add_zero, List.getElem?_set_self (by omega)]
        rfl
      | succ q =>
        have := h3 q prob hq
        rw [show i * n0 + j + (q + 1) = i * n0 + (j + 1) + q by omega, this,
          show j + 1 + q = j + (q + 1) by omega]
    · intro idx hidx
      simp only [List.length_cons] at hidx
      rw [h4 idx (by omega), List.getElem?_set_ne (by omega)]

theorem fillEnv_overflow (n0 i : Nat) (k b : ℝ) (samp : Nat → Nat → List Nat) (probs : List (List ℝ)) (j : Nat)
    (F : List (Option (List ℝ))) (h0 : i * n0 + j ≤ F.length) (h : F.length < i * n0 + j + probs.length) :
    fillEnv n0 i k b samp j probs F = .error .indexError := by
  induction probs generalizing j F with
  | nil => simp at h; omega
  | cons p rest ih =>
    simp only [List.length_cons] at h
    unfold fillEnv writeRow
    by_cases hlt : i * n0 + j < F.length
    · rw [if_pos hlt]
      exact ih (j + 1) _ (by rw [List.length_set]; omega) (by rw [List.length_set]; omega)
    · rw [if_neg hlt]
      rfl

theorem fillEnvs_spec (n0 : Nat) (k b : ℝ) (samp : Nat → Nat → List Nat) (envs : List (List (List ℝ))) (i : Nat)
    (F : List (Option (List ℝ))) (heq : ∀ e ∈ envs, e.length = n0) (h : (i + envs.length) * n0 ≤ F.length) :
    ∃ F', fillEnvs n0 k b samp i envs F = .ok F' ∧ F'.length = F.length ∧
      (∀ (q j : Nat) env prob, envs[q]? = some env → env[j]? = some prob →
        F'[(i + q) * n0 + j]? = some (some (calibRow k b (samp (i + q) j) prob))) ∧
      ∀ idx, idx < i * n0 → F'[idx]? = F[idx]? := by
  induction envs generalizing i F with
  | nil => exact ⟨F, rfl, rfl, by simp, fun _ _ => rfl⟩
  | cons e rest ih =>
    have he := heq e List.mem_cons_self
    have hexp : (i + (rest.length + 1)) * n0 = i * n0 + n0 + rest.length * n0 := by ring
    simp only [List.length_cons, hexp] at h
    obtain ⟨F1, h1, h2, h3, h4⟩ := fillEnv_spec n0 i k b samp e 0 F (by
      rw [he]; have := Nat.zero_le (rest.length * n0); omega)
    obtain ⟨F', g1, g2, g3, g4⟩ := ih (i + 1) F1 (fun e he => heq e (List.mem_cons_of_mem _ he)) (by
      rw [h2]
      have : (i + 1 + rest.length) * n0 = i * n0 + n0 + rest.length * n0 := by ring
      omega)
    have hi1 : (i + 1) * n0 = i * n0 + n0 := by ring
    refine ⟨F', ?_, by rw [g2, h2], ?_, ?_⟩
    · unfold fillEnvs
      rw [h1]
      exact g1
    · intro q j env prob hq hj
      cases q with
      | zero =>
        cases hq
        have hjl : j < e.length := (List.getElem?_eq_some_iff.1 hj).1
        rw [Nat.add_zero, g4 _ (by omega)]
        have := h3 j prob hj
        simpa using this
      | succ q =>
        have := g3 q j env prob hq hj
        rw [show i + (q + 1) = i + 1 + q by omega]
        exact this
    · intro idx hidx
      rw [g4 idx (by omega), h4 idx (by left; omega)]

theorem tuneLoop_spec (opt : Nat → MinRes) (n i : Nat) (last : MinRes) :
    ∃ r, i ≤ r ∧ r ≤ i + n ∧ (tuneLoop opt (n + 1) i last).1 = opt r ∧
      (∀ j, i ≤ j → j < r → ∀ v, (opt j).val = some v → 0.02 ≤ v) ∧
      (i + n ≤ r ∨ ∃ v, (opt r).val = some v ∧ v < 0.02) := by
  induction n generalizing i last with
  | zero =>
    refine ⟨i, le_rfl, by omega, ?_, fun j h1 h2 => by omega, .inl (by omega)⟩
    unfold tuneLoop
    simp only
    split
    · split <;> rfl
    · rfl
  | succ n ih =>
    obtain ⟨r, h1, h2, h3, h4, h5⟩ := ih (i + 1) (opt i)
    have hcont : (∀ v, (opt i).val = some v → 0.02 ≤ v) →
        (tuneLoop opt (n + 1 + 1) i last).1 = (tuneLoop opt (n + 1) (i + 1) (opt i)).1 →
        ∃ r, i ≤ r ∧ r ≤ i + (n + 1) ∧ (tuneLoop opt (n + 1 + 1) i last).1 = opt r ∧
          (∀ j, i ≤ j → j < r → ∀ v, (opt j).val = some v → 0.02 ≤ v) ∧
          (i + (n + 1) ≤ r ∨ ∃ v, (opt r).val = some v ∧ v < 0.02) := by
      intro hv he
      refine ⟨r, by omega, by omega, by rw [he, h3], fun j hj1 hj2 => ?_, ?_⟩
      · rcases Nat.eq_or_lt_of_le hj1 with rfl | hlt
        · exact hv
        · exact h4 j hlt hj2
      · rcases h5 with h5 | h5
        · left; omega
        · exact .inr h5
    cases hval : (opt i).val with
    | none =>
      refine hcont (by simp [hval]) ?_
      conv_lhs => unfold tuneLoop
      simp only [hval]
    | some v =>
      by_cases hlt : v < 0.02
      · refine ⟨i, le_rfl, by omega, ?_, fun j h1 h2 => by omega, .inr ⟨v, hval, hlt⟩⟩
        conv_lhs => unfold tuneLoop
        simp only [hval, if_pos hlt]
      · refine hcont (fun w hw => ?_) ?_
        · rw [hval] at hw
          cases hw
          exact not_lt.1 hlt
        · conv_lhs => unfold tuneLoop
          simp only [hval, if_neg hlt]

/-- There is a query to sample exactly if there is one at all. -/
theorem sampleQsCount_eq_zero (C : Nat) : sampleQsCount C = 0 ↔ C = 0 := by
  unfold sampleQsCount
  simp only [Nat.floor_eq_zero]
  constructor
  · intro h
    by_contra hC
    have h1 : (1 : ℚ) ≤ C := by exact_mod_cast Nat.one_le_iff_ne_zero.2 hC
    split at h
    · rw [min_lt_iff] at h
      rcases h with h | h <;> linarith
    · next h30 => linarith
  · rintro rfl
    norm_num

end Lop
