import Verif.Props.Calib
import Mathlib.Tactic.Push

/-! # C71: exactly when the calibration matrix is right -/

namespace Lop.Props

open Lop

/-- What `fillEnvs` leaves alone, and what it needs. -/
theorem fillEnvs_ok (n0 : Nat) (k b : ℝ) (samp : Nat → Nat → List Nat) :
    ∀ (envs : List (List (List ℝ))) (i : Nat) (F F' : List (Option (List ℝ))), i * n0 ≤ F.length →
      (∀ q < envs.length, (i + q) * n0 ≤ F.length) → fillEnvs n0 k b samp i envs F = .ok F' →
      F'.length = F.length ∧ (∀ (q : Nat) env, envs[q]? = some env → (i + q) * n0 + env.length ≤ F.length) ∧
      ∀ idx, (∀ (q : Nat) env, envs[q]? = some env → ¬ ((i + q) * n0 ≤ idx ∧ idx < (i + q) * n0 + env.length)) →
        F'[idx]? = F[idx]? := by
  intro envs
  induction envs with
  | nil =>
    intro i F F' _ _ h
    cases h
    exact ⟨rfl, by simp, fun _ _ => rfl⟩
  | cons e rest ih =>
    intro i F F' h0 hq h
    by_cases hfit : i * n0 + 0 + e.length ≤ F.length
    · obtain ⟨F1, h1, h2, -, h4⟩ := fillEnv_spec n0 i k b samp e 0 F hfit
      unfold fillEnvs at h
      rw [h1] at h
      change fillEnvs n0 k b samp (i + 1) rest F1 = .ok F' at h
      have hq' : ∀ q < rest.length, (i + 1 + q) * n0 ≤ F1.length := by
        intro q hql
        have := hq (q + 1) (by simp; omega)
        rw [h2, show i + 1 + q = i + (q + 1) by omega]
        exact this
      by_cases hr : rest = []
      · subst hr
        cases h
        refine ⟨h2, ?_, ?_⟩
        · intro q env hqe
          cases q with
          | zero => cases hqe; simpa using hfit
          | succ q => simp at hqe
        · intro idx hidx
          have := hidx 0 e rfl
          rw [h4 idx (by simp at this ⊢; omega)]
      · have hi1 : (i + 1) * n0 ≤ F1.length := by
          have := hq' 0 (by cases rest <;> simp_all)
          simpa using this
        obtain ⟨g1, g2, g3⟩ := ih (i + 1) F1 F' hi1 hq' h
        refine ⟨g1.trans h2, ?_, ?_⟩
        · intro q env hqe
          cases q with
          | zero => cases hqe; simpa using hfit
          | succ q =>
            have := g2 q env (by simpa using hqe)
            rw [h2, show i + 1 + q = i + (q + 1) by omega] at this
            exact this
        · intro idx hidx
          rw [g3 idx (fun q env hqe => by
            have := hidx (q + 1) env (by simpa using hqe)
            rw [show i + 1 + q = i + (q + 1) by omega]
            exact this)]
          have := hidx 0 e rfl
          rw [h4 idx (by simp at this ⊢; omega)]
    · unfold fillEnvs at h
      rw [fillEnv_overflow n0 i k b samp e 0 F (by omega) (by omega)] at h
      cases h

/-- C71, exactly when it holds: when every environment has a planning problem and every problem a path, the calibration matrix has
its row for every problem and no uninitialised row, for all samples of paths, if and only if all environments have equally many
problems. -/
theorem C71_exact (e0 : List (List ℝ)) (rest : List (List (List ℝ))) (k b : ℝ) (hne : ∀ e ∈ e0 :: rest, e ≠ [])
    (hpath : ∀ e ∈ e0 :: rest, ∀ prob ∈ e, prob ≠ []) :
    (∀ samp, ∃ F, calibMatrix (e0 :: rest) k b samp = .ok F ∧ (∀ row ∈ F, row ≠ none) ∧
      ∀ (i j : Nat) env prob, (e0 :: rest)[i]? = some env → env[j]? = some prob →
        F[i * e0.length + j]? = some (some ((samp i j).filterMap fun s => (prob[s]?).map fun f => f * k + b))) ↔
    ∀ e ∈ rest, e.length = e0.length := by
  constructor
  · intro h
    have hn0 : 0 < e0.length := List.length_pos_iff.2 (hne e0 (by simp))
    have basics : ∀ samp F, calibMatrix (e0 :: rest) k b samp = .ok F →
        F.length = (rest.length + 1) * e0.length ∧
        (∀ (q : Nat) env, (e0 :: rest)[q]? = some env → q * e0.length + env.length ≤ (rest.length + 1) * e0.length) ∧
        ∀ idx, idx < (rest.length + 1) * e0.length →
          (∀ (q : Nat) env, (e0 :: rest)[q]? = some env → ¬ (q * e0.length ≤ idx ∧ idx < q * e0.length + env.length)) →
          F[idx]? = some none := by
      intro samp F hF
      obtain ⟨h1, h2, h3⟩ := fillEnvs_ok e0.length k b samp (e0 :: rest) 0 _ F (by simp) (by
        intro q hq
        rw [List.length_replicate, Nat.zero_add]
        exact Nat.mul_le_mul_right _ hq.le) hF
      simp only [Nat.zero_add, List.length_replicate, List.length_cons] at h1 h2 h3
      refine ⟨h1, h2, fun idx hidx hun => ?_⟩
      rw [h3 idx hun, List.getElem?_replicate, if_pos hidx]
    -- no environment is larger
    have hle : ∀ (i : Nat) env, (e0 :: rest)[i]? = some env → env.length ≤ e0.length := by
      intro i env hi
      by_contra hgt
      push Not at hgt
      have hil : i < rest.length + 1 := by simpa using (List.getElem?_eq_some_iff.1 hi).1
      by_cases hlast : i + 1 < rest.length + 1
      · -- the first problem of the next environment is written over problem `n0` of this one
        have hnx : (e0 :: rest)[i + 1]? = some ((e0 :: rest)[i + 1]'(by simpa using hlast)) :=
          List.getElem?_eq_getElem _
        set env' := (e0 :: rest)[i + 1]'(by simpa using hlast) with henv'
        have hmem : env' ∈ e0 :: rest := List.getElem_mem _
        obtain ⟨p', ps', hp'⟩ := List.exists_cons_of_ne_nil (hne env' hmem)
        have hp0 : env'[0]? = some p' := by rw [hp']; rfl
        obtain ⟨f, fs, hf⟩ := List.exists_cons_of_ne_nil (hpath env' hmem p' (by rw [hp']; simp))
        obtain ⟨F, -, -, hF⟩ := h (fun a _ => if a = i + 1 then [0] else [])
        have h1 := hF i e0.length env env[e0.length] hi (List.getElem?_eq_getElem hgt)
        have h2 := hF (i + 1) 0 env' p' hnx hp0
        have hidx : (i + 1) * e0.length + 0 = i * e0.length + e0.length := by ring
        rw [hidx, h1] at h2
        simp [hf] at h2
      · obtain ⟨F, hF, -⟩ := h (fun _ _ => [])
        have hb := (basics _ F hF).2.1 i env hi
        have : i = rest.length := by omega
        rw [this] at hb
        have : (rest.length + 1) * e0.length = rest.length * e0.length + e0.length := by ring
        omega
    intro e he
    obtain ⟨i, hi⟩ := List.mem_iff_getElem?.1 (List.mem_cons_of_mem e0 he)
    refine le_antisymm (hle i e hi) ?_
    by_contra hlt
    push Not at hlt
    obtain ⟨F, hF, hnone, -⟩ := h (fun _ _ => [])
    have hil : i < rest.length + 1 := by simpa using (List.getElem?_eq_some_iff.1 hi).1
    have hbound : i * e0.length + e.length < (rest.length + 1) * e0.length := by
      calc i * e0.length + e.length < i * e0.length + e0.length := by omega
        _ = (i + 1) * e0.length := by ring
        _ ≤ _ := Nat.mul_le_mul_right _ hil
    have hun := (basics _ F hF).2.2 (i * e0.length + e.length) hbound (by
      intro q env hq ⟨ha, hb⟩
      have hl := hle q env hq
      rcases lt_trichotomy q i with hqi | hqi | hqi
      · have : (q + 1) * e0.length ≤ i * e0.length := Nat.mul_le_mul_right _ hqi
        have e2 : (q + 1) * e0.length = q * e0.length + e0.length := by ring
        omega
      · subst hqi
        rw [hi] at hq
        cases hq
        omega
      · have : (i + 1) * e0.length ≤ q * e0.length := Nat.mul_le_mul_right _ hqi
        have e2 : (i + 1) * e0.length = i * e0.length + e0.length := by ring
        omega)
    exact hnone none (List.mem_iff_getElem?.2 ⟨_, hun⟩) rfl
  · intro heq samp
    obtain ⟨F, h1, -, h3, h4⟩ := C71_equal_sizes e0 rest k b samp heq
    exact ⟨F, h1, h3, h4⟩

/-- Two environments with two and one problems. -/
example : ¬ ∀ samp, ∃ F, calibMatrix [[[1, 2], [3]], [[4]]] 1 0 samp = .ok F ∧ (∀ row ∈ F, row ≠ none) ∧
      ∀ (i j : Nat) env prob, ([[[1, 2], [3]], [[4]]] : List (List (List ℝ)))[i]? = some env → env[j]? = some prob →
        F[i * 2 + j]? = some (some ((samp i j).filterMap fun s => (prob[s]?).map fun f => f * 1 + 0)) := by
  intro h
  have := (C71_exact [[1, 2], [3]] [[[4]]] 1 0 (by simp) (by simp)).1 h
  simp at this

end Lop.Props
