import Verif.Spec.NoLabels
import Verif.Spec.Laplace
import Verif.Proofs.FindMode
import Mathlib.Analysis.Normed.Group.Constructions

/-! # Helper lemmas for training points without labels -/

namespace Lop

open Matrix Spec

variable {n : Nat}

/-- The line search on a parabola with its top at 1. -/
theorem binarySearch_parabola {q c : ℝ} (hq : 0 < q) :
    binarySearch (fun lam : ℝ => (((c - 1 / 2 * ((1 - lam) ^ 2 * q) : ℝ)) : WithBot ℝ)) 3 0 (3 / 2) = 33 / 32 := by
  have h1 : ¬ ((c - 1 / 2 * ((1 - ((3 / 2 - 0) * (3 / 4) + 0 : ℝ)) ^ 2 * q) : ℝ) < c - 1 / 2 * ((1 - ((3 / 2 - 0) * (1 / 4) + 0 : ℝ)) ^ 2 * q)) := by
    norm_num; nlinarith
  have h2 : ((c - 1 / 2 * ((1 - ((3 / 2 - ((3 / 2 - 0) * (1 / 2) + 0)) * (3 / 4) + ((3 / 2 - 0) * (1 / 2) + 0) : ℝ)) ^ 2 * q) : ℝ) <
      c - 1 / 2 * ((1 - ((3 / 2 - ((3 / 2 - 0) * (1 / 2) + 0)) * (1 / 4) + ((3 / 2 - 0) * (1 / 2) + 0) : ℝ)) ^ 2 * q)) := by
    norm_num; nlinarith
  unfold binarySearch
  simp only [binaryLoop, gt_iff_lt, WithBot.coe_lt_coe]
  rw [if_neg h1, if_pos h2, if_neg (by norm_num; nlinarith)]
  norm_num

theorem update_noLabels (P : ProbitSet) {K : Matrix (Fin n) (Fin n) ℝ} (hK : K.PosDef)
    {invert : Matrix (Fin n) (Fin n) ℝ → Option (Matrix (Fin n) (Fin n) ℝ)} (hinv : InvertsInvertible invert) (F : Fin n → ℝ) :
    findModeUpdate P (noLabels n) K invert F = .ok (some (-(1 / 32 : ℝ) • F)) := by
  have hu : IsUnit K.det := (Matrix.isUnit_iff_isUnit_det _).1 hK.isUnit
  have hsym : Kᵀ = K := by
    have := hK.isHermitian.eq
    rwa [conjTranspose_eq_transpose_of_trivial] at this
  have hder : gpDerivatives P (noLabels n) F = .ok (some (0, 0, 0)) := by
    simp [gpDerivatives, noLabels, ordPart, pairPart, absPart, Except.map]
  have hdir : descentDir (0 - K⁻¹ *ᵥ F) (-0 - K⁻¹) invert = F := by
    have hu' : IsUnit (-0 - K⁻¹).det := by
      rw [neg_zero, zero_sub, Matrix.det_neg]
      exact (((isUnit_one.neg).pow _)).mul ((Matrix.isUnit_nonsing_inv_det_iff).2 hu)
    unfold descentDir
    rw [hinv _ hu']
    have e : (-0 - K⁻¹)⁻¹ = -K := by
      apply Matrix.inv_eq_right_inv
      rw [neg_zero, zero_sub, neg_mul_neg, Matrix.nonsing_inv_mul _ hu]
    simp only [e]
    rw [zero_sub, neg_vecMul_neg, ← mulVec_transpose, hsym, mulVec_mulVec, mul_nonsing_inv _ hu, one_mulVec]
  have hloss : ∀ lam : ℝ, lossValue (likliF P (noLabels n) K (F - lam • F)) =
      (((-(Real.log K.det / 2) - 1 / 2 * n * Real.log (2 * Real.pi)) - 1 / 2 * ((1 - lam) ^ 2 * (F ⬝ᵥ (K⁻¹ *ᵥ F))) : ℝ) : WithBot ℝ) := by
    intro lam
    have e : F - lam • F = (1 - lam) • F := by rw [sub_smul, one_smul]
    simp only [likliF, logLikTraining, noLabels, ordLogPart, pairLogPart, absLogPart, Except.map, Option.map_some, lossValue, e,
      mulVec_smul, smul_dotProduct, dotProduct_smul, smul_eq_mul, WithBot.coe_inj]
    ring
  have hmain : newtonUpdate F (0 - K⁻¹ *ᵥ F) (-0 - K⁻¹) (fun F => lossValue (likliF P (noLabels n) K F)) invert .binary 3 =
      .ok (-(1 / 32 : ℝ) • F) := by
    unfold newtonUpdate
    simp only [hdir, hloss]
    rcases eq_or_ne F 0 with h0 | h0
    · subst h0; simp
    · have hq : 0 < F ⬝ᵥ (K⁻¹ *ᵥ F) := by
        have := hK.inv.dotProduct_mulVec_pos h0
        simpa using this
      rw [binarySearch_parabola hq]
      congr 1
      ext i
      simp only [Pi.sub_apply, Pi.smul_apply, smul_eq_mul]
      ring
  unfold findModeUpdate
  rw [hder]
  simp only [modeGradHess, Bind.bind, Except.bind, hmain, pure, Except.pure]

/-- The loop with a step that always wants to go on. -/
theorem findModeLoop_forever {σ : Type*} {step : σ → Except PyErr (σ × Bool)} {s : Nat → σ} (ml : Nat)
    (h : ∀ j ≤ ml, step (s j) = .ok (s (j + 1), true)) :
    ∀ (fuel loops : Nat), loops ≤ ml → ml + 2 ≤ fuel + loops →
      findModeLoop step ml fuel (s loops) true loops = some (.ok (s (ml + 1), ml + 1)) := by
  intro fuel
  induction fuel with
  | zero => intro loops h1 h2; omega
  | succ fuel ih =>
    intro loops h1 h2
    simp only [findModeLoop, if_true, h loops h1]
    by_cases hl : loops + 1 > ml
    · have : loops = ml := by omega
      subst this
      simp
    · rw [if_neg hl]
      exact ih (loops + 1) (by omega) (by omega)

end Lop
