import Verif.Props.AbsAlign

/-! # C76: candidates worth less than the present alignment -/

namespace Lop.Props

open Lop.Spec

noncomputable section

variable {M d s : Nat}

/-- C76 refuted (information) for `one`: every rating query, informative or not, is worth strictly less than the
present mean alignment, which is one: its value is the probability that the rating falls into the interval
integrated over. -/
theorem C76_one_counterexample (hd : 2 ≤ d) (hM : 0 < M) {v eps : ℝ} (hv : 0 < v) (he : 0 < eps)
    (he' : eps < 1 / 2) (σ sigma : ℝ) (X : Fin M → Fin d → ℝ) (Qs : List (Fin s → Fin d))
    (allQ : Fin M → Nat → ℝ) (c : Nat) :
    ∃ f : Fin M → Fin M → ℝ, (∀ i k, alignment σ (some .one) X Qs i k = .ok (some (some (f i k)))) ∧
      (∑ i, ∑ j, f i j) / (M * M) = 1 ∧
      absAlign sigma v eps f allQ c = massIn sigma v eps allQ c ∧ absAlign sigma v eps f allQ c < 1 := by
  have hM' : (M : ℝ) ≠ 0 := by exact_mod_cast hM.ne'
  obtain ⟨-, h1, h2, h3⟩ := C76_bounds_partial hM hv he he' sigma (fun _ _ => (1 : ℝ)) allQ c
    (lo := 1) (hi := 1) (fun _ _ => ⟨le_rfl, le_rfl⟩)
  rw [one_mul] at h2 h3
  refine ⟨fun _ _ => 1, fun i k => ((C75_small σ (some .one) X Qs i k).2 hd).2, ?_, le_antisymm h3 h2,
    lt_of_le_of_lt h3 h1⟩
  simp [hM']

/-- C76 (information), exact for candidates about which all samples agree: such a query is worth less than the
present mean alignment exactly if the latter is positive, and more exactly if it is negative. -/
theorem C76_uninformative_exact (hM : 0 < M) {v eps : ℝ} (hv : 0 < v) (he : 0 < eps) (he' : eps < 1 / 2)
    (sigma : ℝ) (f : Fin M → Fin M → ℝ) (allQ : Fin M → Nat → ℝ) (c : Nat)
    (h : ∀ w w', allQ w c = allQ w' c) :
    (absAlign sigma v eps f allQ c < (∑ i, ∑ j, f i j) / (M * M) ↔ 0 < ∑ i, ∑ j, f i j) ∧
    ((∑ i, ∑ j, f i j) / (M * M) < absAlign sigma v eps f allQ c ↔ ∑ i, ∑ j, f i j < 0) := by
  have hM' : (0 : ℝ) < M := by exact_mod_cast hM
  have hMM : (0 : ℝ) < M * M := by positivity
  obtain ⟨h0, h1, -, -⟩ := C76_bounds_partial hM hv he he' sigma (fun _ _ => (1 : ℝ)) allQ c
    (lo := 1) (hi := 1) (fun _ _ => ⟨le_rfl, le_rfl⟩)
  rw [C76_uninformative hM hv he he' sigma f allQ c h]
  set m := massIn sigma v eps allQ c
  set S := ∑ i, ∑ j, f i j
  have e : m * (S / (M * M)) - S / (M * M) = (m - 1) * S / (M * M) := by ring
  constructor
  · rw [← sub_neg, e, div_neg_iff]
    constructor
    · rintro (⟨_, h⟩ | ⟨h, _⟩)
      · linarith
      · nlinarith
    · intro h
      exact .inr ⟨by nlinarith, hMM⟩
  · rw [← sub_pos, e, div_pos_iff]
    constructor
    · rintro (⟨h, _⟩ | ⟨_, h⟩)
      · nlinarith
      · linarith
    · intro h
      exact .inl ⟨by nlinarith, hMM⟩

/-- The hypotheses are met: two samples, two points, noise level one. -/
example : absAlign 1 4 1e-10 (fun _ _ : Fin 2 => 1) (fun _ _ => 0) 0 < 1 := by
  obtain ⟨f, hf, -, h, h'⟩ := C76_one_counterexample (M := 2) (d := 2) (s := 0) le_rfl (by norm_num)
    (v := 4) (eps := 1e-10) (by norm_num) (by norm_num) (by norm_num) 1 1 (fun _ _ => 0) [] (fun _ _ => 0) 0
  have : f = fun _ _ => 1 := by
    funext i k
    have := (hf i k).symm.trans (((C75_small 1 (some .one) (fun _ _ => 0) [] i k).2 le_rfl).2)
    simpa using this
  rwa [this] at h'

end

end Lop.Props
