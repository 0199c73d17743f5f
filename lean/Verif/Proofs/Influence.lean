import Verif.Spec.Influence
import Verif.Proofs.ModeLearned
import Verif.Proofs.ModeLoop
import Verif.Proofs.Copies
import Verif.Proofs.RatingModes

/-! # Helper lemmas: how far answers can move a model -/

namespace Lop

open Lop.Spec Matrix

variable {n : Nat}

theorem influence_nonneg {sigma : ℝ} (hs : 0 < sigma) (F : Fin n → ℝ) (K : Matrix (Fin n) (Fin n) ℝ) (l : List (IPair n)) :
    0 ≤ influence sigma F K l := by
  refine List.sum_nonneg fun x hx => ?_
  obtain ⟨p, -, rfl⟩ := List.mem_map.1 hx
  have := pairPull_pos hs F p
  positivity

theorem pairGradV_append (sigma : ℝ) (y l : List (IPair n)) (F : Fin n → ℝ) :
    pairGradV sigma (y ++ l) F = pairGradV sigma y F + pairGradV sigma l F := by
  funext i
  simp [pairGradV]

theorem pairGradV_perm (sigma : ℝ) {y y' : List (IPair n)} (h : y.Perm y') (F : Fin n → ℝ) :
    pairGradV sigma y F = pairGradV sigma y' F := by
  funext i
  exact (h.map _).sum_eq

/-- The gradient of the log-likelihood falls along every direction. -/
theorem pairGradV_mono {sigma : ℝ} (hs : 0 < sigma) (y : List (IPair n)) (F G : Fin n → ℝ) :
    (G - F) ⬝ᵥ (pairGradV sigma y G - pairGradV sigma y F) ≤ 0 := by
  rw [dotProduct_sub, dot_pairGradV, dot_pairGradV, sub_nonpos]
  refine List.sum_le_sum fun p _ => sub_nonpos.1 ?_
  have hq : 0 < Real.sqrt 2 * sigma := by positivity
  have e : ∀ H : Fin n → ℝ, pairPull sigma H p = mratio (pairZ sigma H p) / (Real.sqrt 2 * sigma) := fun H => rfl
  have ez : (p.dk : ℝ) * ((G - F) p.v - (G - F) p.u) = (pairZ sigma G p - pairZ sigma F p) * (Real.sqrt 2 * sigma) := by
    simp only [pairZ, Pi.sub_apply]
    field_simp
    ring
  have e2 : pairPull sigma G p * p.dk * ((G - F) p.v - (G - F) p.u) - pairPull sigma F p * p.dk * ((G - F) p.v - (G - F) p.u) =
      (mratio (pairZ sigma G p) - mratio (pairZ sigma F p)) * (pairZ sigma G p - pairZ sigma F p) := by
    rw [mul_assoc, mul_assoc, ez, e, e]
    field_simp
  rw [e2]
  rcases le_total (pairZ sigma F p) (pairZ sigma G p) with h | h
  · exact mul_nonpos_of_nonpos_of_nonneg (by linarith [mratio_antitone h]) (by linarith)
  · exact mul_nonpos_of_nonneg_of_nonpos (by linarith [mratio_antitone h]) (by linarith)

theorem diffVar_nonneg {K : Matrix (Fin n) (Fin n) ℝ} (hK : K.PosDef) (u v : Fin n) : 0 ≤ diffVar K v u := by
  by_cases h : u = v
  · subst h; simp [diffVar]
  · have := var_diff_pos hK h
    unfold diffVar
    linarith

/-- A difference of two values is at most its prior standard deviation times the length. -/
theorem abs_diff_le {K : Matrix (Fin n) (Fin n) ℝ} (hK : K.PosDef) (x : Fin n → ℝ) (u v : Fin n) :
    |x v - x u| ≤ Real.sqrt (diffVar K v u) * Real.sqrt (x ⬝ᵥ (K⁻¹ *ᵥ x)) := by
  rw [← Real.sqrt_mul (diffVar_nonneg hK u v)]
  refine Real.abs_le_sqrt ?_
  have h := cauchy_posDef hK x (Pi.single v 1 - Pi.single u 1)
  have e1 : (Pi.single v (1 : ℝ) - Pi.single u 1) ⬝ᵥ x = x v - x u := by
    rw [sub_dotProduct]; simp
  have e2 : (Pi.single v (1 : ℝ) - Pi.single u 1) ⬝ᵥ (K *ᵥ (Pi.single v 1 - Pi.single u 1)) = diffVar K v u := by
    rw [mulVec_sub, sub_dotProduct, dotProduct_sub, dotProduct_sub]
    simp [mulVec_single, diffVar]
    ring
  rwa [e1, e2] at h

theorem dot_le_influence {sigma : ℝ} (hs : 0 < sigma) {K : Matrix (Fin n) (Fin n) ℝ} (hK : K.PosDef) (F x : Fin n → ℝ)
    (l : List (IPair n)) : x ⬝ᵥ pairGradV sigma l F ≤ influence sigma F K l * Real.sqrt (x ⬝ᵥ (K⁻¹ *ᵥ x)) := by
  rw [dot_pairGradV, influence, ← List.sum_map_mul_right]
  refine List.sum_le_sum fun p _ => ?_
  have h3 := abs_diff_le hK x p.u p.v
  have h4 := pairPull_pos hs F p
  calc pairPull sigma F p * p.dk * (x p.v - x p.u) ≤ |pairPull sigma F p * p.dk * (x p.v - x p.u)| := le_abs_self _
    _ = pairPull sigma F p * |(p.dk : ℝ)| * |x p.v - x p.u| := by rw [abs_mul, abs_mul, abs_of_pos h4]
    _ ≤ pairPull sigma F p * |(p.dk : ℝ)| * (Real.sqrt (diffVar K p.v p.u) * Real.sqrt (x ⬝ᵥ (K⁻¹ *ᵥ x))) :=
        mul_le_mul_of_nonneg_left h3 (by positivity)
    _ = _ := by ring

/-- The length of the change of the mode. -/
theorem mode_change {sigma : ℝ} (hs : 0 < sigma) {y l y' : List (IPair n)} (hy' : y'.Perm (y ++ l))
    {K : Matrix (Fin n) (Fin n) ℝ} (hK : K.PosDef) {m m' : Fin n → ℝ} (hm : IsMode sigma y K m) (hm' : IsMode sigma y' K m') :
    Real.sqrt ((m' - m) ⬝ᵥ (K⁻¹ *ᵥ (m' - m))) ≤ min (influence sigma m K l) (influence sigma m' K l) := by
  have hu : IsUnit K.det := (Matrix.isUnit_iff_isUnit_det _).1 hK.isUnit
  have f1 : K⁻¹ *ᵥ m = pairGradV sigma y m := by
    conv_lhs => rw [(isMode_iff_fixed hK).1 hm]
    rw [mulVec_mulVec, nonsing_inv_mul _ hu, one_mulVec]
  have f2 : K⁻¹ *ᵥ m' = pairGradV sigma y m' + pairGradV sigma l m' := by
    conv_lhs => rw [(isMode_iff_fixed hK).1 hm']
    rw [mulVec_mulVec, nonsing_inv_mul _ hu, one_mulVec, pairGradV_perm sigma hy', pairGradV_append]
  set x := m' - m with hx
  set S := x ⬝ᵥ (K⁻¹ *ᵥ x) with hS
  have hS0 : 0 ≤ S := by
    have := hK.inv.posSemidef.dotProduct_mulVec_nonneg x
    simpa only [star_trivial] using this
  have h1 : S ≤ x ⬝ᵥ pairGradV sigma l m' := by
    have e : K⁻¹ *ᵥ x = (pairGradV sigma y m' - pairGradV sigma y m) + pairGradV sigma l m' := by
      rw [hx, mulVec_sub, f1, f2]
      abel
    rw [hS, e, dotProduct_add]
    linarith [pairGradV_mono hs y m m']
  have h2 : x ⬝ᵥ pairGradV sigma l m' ≤ x ⬝ᵥ pairGradV sigma l m := by
    have := pairGradV_mono hs l m m'
    rw [dotProduct_sub] at this
    linarith
  have key : ∀ I : ℝ, 0 ≤ I → S ≤ I * Real.sqrt S → Real.sqrt S ≤ I := by
    intro I hI h
    rcases (Real.sqrt_nonneg S).eq_or_lt with h0 | h0
    · rwa [← h0]
    · have h5 := Real.mul_self_sqrt hS0
      by_contra hc
      have := mul_lt_mul_of_pos_right (not_le.1 hc) h0
      linarith
  exact le_min (key _ (influence_nonneg hs m K l) ((h1.trans h2).trans (dot_le_influence hs hK m x l)))
    (key _ (influence_nonneg hs m' K l) (h1.trans (dot_le_influence hs hK m' x l)))

theorem mratio_le_surprise (z : ℝ) : mratio z ≤ mratio 0 + max 0 (-z) := by
  rcases le_total 0 z with h | h
  · have := mratio_antitone h
    have := le_max_left 0 (-z)
    linarith
  · have h1 : mratio z + z ≤ mratio 0 + 0 := mono_mratio_add h
    have := le_max_right 0 (-z)
    linarith

theorem mratio_at_zero : mratio 0 = Real.sqrt (2 / Real.pi) := by
  rw [mratio, Phi_zero, phi]
  have hp := Real.pi_pos
  rw [Real.sqrt_div (by norm_num : (0 : ℝ) ≤ 2)]
  have h2 : Real.sqrt (2 * Real.pi) = Real.sqrt 2 * Real.sqrt Real.pi := Real.sqrt_mul (by norm_num) _
  have h3 : Real.sqrt 2 * Real.sqrt 2 = 2 := Real.mul_self_sqrt (by norm_num)
  have h4 : 0 < Real.sqrt Real.pi := Real.sqrt_pos.2 hp
  have h5 : 0 < Real.sqrt 2 := by positivity
  simp [h2]
  field_simp
  nlinarith

end Lop
