import Verif.Spec.Frequency
import Verif.Proofs.AgainCov
import Verif.Proofs.RatingModes

/-! # Helper lemmas: one question asked many times -/

namespace Lop

open Lop.Spec Matrix

variable {n : Nat}

theorem favours_counts {u v : Fin n} (huv : u ≠ v) (y : List (IPair n)) (hy : ∀ p ∈ y, AboutPair u v p) (f : ℝ → ℝ) :
    (y.map fun p => f (answerSign v p)).sum =
      (y.countP fun p => Favours v p) * f 1 + (y.length - y.countP fun p => Favours v p : ℝ) * f (-1) := by
  induction y with
  | nil => simp
  | cons p y ih =>
    have h := hy p List.mem_cons_self
    rw [List.map_cons, List.sum_cons, ih fun q hq => hy q (List.mem_cons_of_mem _ hq), List.countP_cons, List.length_cons]
    by_cases hf : Favours v p
    · have e : answerSign v p = 1 := by
        rcases hf with ⟨h1, h2⟩ | ⟨h1, h2⟩
        · simp [answerSign, h1, h2]
        · have : p.v ≠ v := by
            rcases h.2 with ⟨h3, h4⟩ | ⟨h3, h4⟩
            · exact absurd (h3.symm.trans h2) huv
            · rw [h4]
              exact huv
          simp [answerSign, h1, this]
      simp only [e, hf, decide_true, if_true]
      push_cast
      ring
    · have e : answerSign v p = -1 := by
        rcases h.1 with h1 | h1
        · have : p.v ≠ v := fun h2 => hf (.inl ⟨h1, h2⟩)
          simp [answerSign, h1, this]
        · have h2 : p.u ≠ v := fun h2 => hf (.inr ⟨h1, h2⟩)
          have h3 : p.v = v := by
            rcases h.2 with ⟨-, h4⟩ | ⟨h3, h4⟩
            · exact h4
            · exact absurd h3 h2
          simp [answerSign, h1, h3]
      simp only [e, hf, decide_false, Bool.false_eq_true, if_false]
      push_cast
      ring

/-- The balance of the two pulls. -/
theorem pull_balance (a b z : ℝ) :
    a * mratio z - b * mratio (-z) = phi z * (a - (a + b) * Phi z) / (Phi z * Phi (-z)) := by
  have h1 := (Phi_pos z).ne'
  have h2 := (Phi_pos (-z)).ne'
  have e : Phi (-z) = 1 - Phi z := Phi_neg z
  rw [mratio, mratio, phi_neg]
  field_simp
  rw [e]
  ring

theorem tail_prod (z : ℝ) : |z| * (Phi z * Phi (-z)) ≤ phi z := by
  rcases le_total 0 z with h | h
  · have h1 := Phi_neg_upper z
    have h2 := (Phi_lt_one z).le
    have h3 := Phi_pos z
    have h4 := Phi_pos (-z)
    rw [abs_of_nonneg h]
    nlinarith [mul_nonneg h h4.le]
  · have h1 := Phi_neg_upper (-z)
    have h2 := (Phi_lt_one (-z)).le
    have h3 := Phi_pos z
    have h4 := Phi_pos (-z)
    rw [abs_of_nonpos h]
    rw [neg_neg, phi_neg] at h1
    nlinarith [mul_nonneg (neg_nonneg.2 h) h3.le]

/-- The solution of the balance equation and the share of the answers. -/
theorem balance_share {c a b z : ℝ} (hc : 0 < c) (hN : 0 < a + b)
    (hz : z = c * (a * mratio z - b * mratio (-z))) :
    |Phi z - a / (a + b)| ≤ 1 / (c * (a + b)) ∧ (0 < z ↔ Phi z < a / (a + b)) ∧ (z < 0 ↔ a / (a + b) < Phi z) := by
  have h3 := Phi_pos z
  have h4 := Phi_pos (-z)
  have hp := phi_pos z
  rw [pull_balance] at hz
  have e : a / (a + b) - Phi z = z * (Phi z * Phi (-z)) / phi z / (c * (a + b)) := by
    have hz' : z * (Phi z * Phi (-z)) = c * (phi z * (a - (a + b) * Phi z)) := by
      rw [← mul_div_assoc] at hz
      exact (eq_div_iff (mul_pos h3 h4).ne').1 hz
    rw [hz']
    field_simp
  have hk : 0 < Phi z * Phi (-z) / phi z / (c * (a + b)) := by positivity
  have e2 : a / (a + b) - Phi z = z * (Phi z * Phi (-z) / phi z / (c * (a + b))) := by
    rw [e]
    ring
  refine ⟨?_, ?_, ?_⟩
  · rw [abs_sub_comm, e, abs_div, abs_div, abs_mul, abs_of_pos hp, abs_of_pos (mul_pos hc hN), abs_of_pos (mul_pos h3 h4)]
    refine div_le_div_of_nonneg_right ?_ (mul_pos hc hN).le
    exact (div_le_one hp).2 (tail_prod z)
  · rw [← sub_pos (a := a / (a + b)), e2]
    exact (mul_pos_iff_of_pos_right hk).symm
  · rw [← sub_neg (a := a / (a + b)), e2]
    refine ⟨fun h => mul_neg_of_neg_of_pos h hk, fun h => ?_⟩
    by_contra h2
    exact absurd h (not_lt.2 (mul_nonneg (not_lt.1 h2) hk.le))

theorem Phi_lip (x y : ℝ) : |Phi x - Phi y| ≤ 0.4 * |x - y| := by
  have hphi : ∀ t, phi t ≤ 0.4 := by
    intro t
    have h := phi_zero_bounds.2
    have h2 : phi t ≤ phi 0 := by
      refine div_le_div_of_nonneg_right (Real.exp_le_exp.2 ?_) (Real.sqrt_nonneg _)
      have := sq_nonneg t
      norm_num
      linarith
    norm_num at h ⊢
    linarith
  have key : ∀ a b : ℝ, a ≤ b → Phi b - Phi a ≤ 0.4 * (b - a) := by
    intro a b hab
    have h : Antitone fun x => Phi x - 0.4 * x := by
      refine antitone_of_deriv_nonpos (fun x => ((hasDerivAt_Phi x).sub ((hasDerivAt_id x).const_mul 0.4)).differentiableAt) ?_
      intro x
      have e : deriv (fun x => Phi x - 0.4 * x) x = phi x - 0.4 * 1 :=
        ((hasDerivAt_Phi x).sub ((hasDerivAt_id x).const_mul 0.4)).deriv
      rw [e]
      linarith [hphi x]
    have := h hab
    simp only at this
    linarith
  rcases le_total x y with h | h
  · rw [abs_sub_comm, abs_sub_comm x, abs_of_nonneg (sub_nonneg.2 (Phi_strictMono.monotone h)), abs_of_nonneg (sub_nonneg.2 h)]
    exact key x y h
  · rw [abs_of_nonneg (sub_nonneg.2 (Phi_strictMono.monotone h)), abs_of_nonneg (sub_nonneg.2 h)]
    exact key y x h

end Lop
