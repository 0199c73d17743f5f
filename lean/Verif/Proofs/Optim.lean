import Verif.Model.Optim
import Verif.Spec.Optim
import Mathlib.Tactic.Linarith
import Mathlib.Tactic.Ring
import Mathlib.Tactic.FieldSimp
import Mathlib.Tactic.Positivity
import Mathlib.Tactic.NormNum
import Mathlib.Analysis.Convex.Function
import Mathlib.LinearAlgebra.Matrix.PosDef
import Mathlib.Data.Real.StarOrdered

/-! Helper lemmas for line searches, Newton steps and fitting loops. -/

namespace Lop

section binary
variable {R S : Type*} [Field R] [LinearOrder R] [IsStrictOrderedRing R] [LinearOrder S]

/-- Interval bookkeeping of the binary search. -/
theorem binaryLoop_interval (g : R → S) (n : Nat) (a b : R) (hab : a ≤ b) :
    a ≤ (binaryLoop g n a b).1 ∧ (binaryLoop g n a b).1 ≤ (binaryLoop g n a b).2 ∧
      (binaryLoop g n a b).2 ≤ b ∧
      (binaryLoop g n a b).2 - (binaryLoop g n a b).1 = (b - a) / 2 ^ n := by
  induction n generalizing a b with
  | zero => simp [binaryLoop, hab]
  | succ n ih =>
    simp only [binaryLoop]
    have h1 : a ≤ (b - a) * (1 / 2) + a := by linarith
    have h2 : (b - a) * (1 / 2) + a ≤ b := by linarith
    split
    · obtain ⟨e1, e2, e3, e4⟩ := ih a ((b - a) * (1 / 2) + a) h1
      refine ⟨e1, e2, e3.trans h2, ?_⟩
      rw [e4, pow_succ]
      field_simp
      ring
    · obtain ⟨e1, e2, e3, e4⟩ := ih ((b - a) * (1 / 2) + a) b h2
      refine ⟨h1.trans e1, e2, e3, ?_⟩
      rw [e4, pow_succ]
      field_simp
      ring

/-- When the objective decreases with the distance to `m`, the clamped `m` stays in the interval. -/
theorem binaryLoop_symmetric (g : R → S) (m : R)
    (hg : ∀ x y, g x < g y ↔ |y - m| < |x - m|) (n : Nat) (a b lo hi : R)
    (hlo : lo ≤ a) (hhi : b ≤ hi) (hab : a ≤ b)
    (h1 : a ≤ max lo (min m hi)) (h2 : max lo (min m hi) ≤ b) :
    (binaryLoop g n a b).1 ≤ max lo (min m hi) ∧ max lo (min m hi) ≤ (binaryLoop g n a b).2 := by
  induction n generalizing a b with
  | zero => exact ⟨h1, h2⟩
  | succ n ih =>
    simp only [binaryLoop]
    have h3 : a ≤ (b - a) * (1 / 2) + a := by linarith
    have h4 : (b - a) * (1 / 2) + a ≤ b := by linarith
    split
    · rename_i hc
      have hc := (hg _ _).1 hc
      refine ih a _ hlo (h4.trans hhi) h3 h1 ?_
      have hm : m ≤ (b - a) * (1 / 2) + a := by
        by_contra hcon
        push Not at hcon
        have h5 : |(b - a) * (3 / 4) + a - m| ≤ |(b - a) * (1 / 4) + a - m| := by
          have e1 : (b - a) * (1 / 4) + a - m < 0 := by linarith
          rw [abs_of_neg e1, abs_le]
          constructor <;> linarith
        linarith
      exact max_le (by linarith) ((min_le_left _ _).trans hm)
    · rename_i hc
      have hc : ¬ |(b - a) * (1 / 4) + a - m| < |(b - a) * (3 / 4) + a - m| := fun h =>
        hc ((hg _ _).2 h)
      refine ih _ b (hlo.trans h3) hhi h4 ?_ h2
      rcases h3.eq_or_lt with heq | hlt
      · rw [← heq]; exact h1
      have hm : (b - a) * (1 / 2) + a ≤ m := by
        by_contra hcon
        push Not at hcon
        apply hc
        have e1 : 0 < (b - a) * (3 / 4) + a - m := by linarith
        rw [abs_of_pos e1, abs_lt]
        constructor <;> linarith
      exact le_max_of_le_right (le_min hm (h4.trans hhi))

/-- Distance of the maximiser from the final interval for concave objectives. -/
theorem binaryLoop_concave (g : R → R) (lo hi : R) (hg : ConcaveOn R (Set.Icc lo hi) g)
    (n : Nat) (a b D : R) (hlo : lo ≤ a) (hhi : b ≤ hi) (hab : a < b) (hD : (b - a) / 4 ≤ D)
    (hm : ∃ m, Spec.IsMaxOn g lo hi m ∧ a - D ≤ m ∧ m ≤ b + D) :
    ∃ m, Spec.IsMaxOn g lo hi m ∧ (binaryLoop g n a b).1 - D ≤ m ∧
      m ≤ (binaryLoop g n a b).2 + D := by
  induction n generalizing a b with
  | zero => exact hm
  | succ n ih =>
    obtain ⟨m, hmax, hm1, hm2⟩ := hm
    have hmid1 : a < (b - a) * (1 / 2) + a := by linarith
    have hmid2 : (b - a) * (1 / 2) + a < b := by linarith
    simp only [binaryLoop]
    -- concavity along three points
    have conc : ∀ x y z, lo ≤ x → z ≤ hi → x < y → y < z →
        (z - y) * g x + (y - x) * g z ≤ (z - x) * g y := by
      intro x y z hx hz hxy hyz
      have hzx : 0 < z - x := by linarith
      have hx' : x ∈ Set.Icc lo hi := ⟨hx, by linarith⟩
      have hz' : z ∈ Set.Icc lo hi := ⟨by linarith, hz⟩
      have w1 : 0 ≤ (z - y) / (z - x) := div_nonneg (by linarith) hzx.le
      have w2 : 0 ≤ (y - x) / (z - x) := div_nonneg (by linarith) hzx.le
      have w3 : (z - y) / (z - x) + (y - x) / (z - x) = 1 := by field_simp; ring
      have := hg.2 hx' hz' w1 w2 w3
      simp only [smul_eq_mul] at this
      have e : (z - y) / (z - x) * x + (y - x) / (z - x) * z = y := by field_simp; ring
      rw [e] at this
      have h2 := mul_le_mul_of_nonneg_left this hzx.le
      have e2 : (z - x) * ((z - y) / (z - x) * g x + (y - x) / (z - x) * g z)
          = (z - y) * g x + (y - x) * g z := by field_simp
      rw [e2] at h2
      exact h2
    set l1 := (b - a) * (1 / 4) + a with hl1
    set l2 := (b - a) * (3 / 4) + a with hl2
    have hl12 : l1 < l2 := by rw [hl1, hl2]; linarith
    split
    · rename_i hc
      refine ih a _ hlo (by linarith) hmid1 (by linarith) ⟨m, hmax, by linarith, ?_⟩
      -- the maximiser is at most `l2`
      have : m ≤ l2 := by
        by_contra hcon
        push Not at hcon
        have h := conc l1 l2 m (by linarith) hmax.2.1 hl12 hcon
        have hgm := hmax.2.2 l2 (by linarith) (by linarith)
        nlinarith [mul_pos (sub_pos.2 hcon) (sub_pos.2 hc),
          mul_nonneg (sub_nonneg.2 hl12.le) (sub_nonneg.2 hgm)]
      linarith
    · rename_i hc
      have hc : g l1 ≤ g l2 := not_lt.1 hc
      by_cases hml : l1 ≤ m
      · exact ih _ b (by linarith) hhi hmid2 (by linarith) ⟨m, hmax, by linarith, hm2⟩
      · push Not at hml
        -- then `l2` is a maximiser as well
        have h := conc m l1 l2 hmax.1 (by linarith) hml hl12
        have hgm := hmax.2.2 l1 (by linarith) (by linarith)
        have hgm2 := hmax.2.2 l2 (by linarith) (by linarith)
        have heq : g l2 = g m := by
          have h0 : (l2 - l1) * (g m - g l1) ≤ (l1 - m) * (g l1 - g l2) := by nlinarith
          have h1 : (l1 - m) * (g l1 - g l2) ≤ 0 :=
            mul_nonpos_of_nonneg_of_nonpos (by linarith) (by linarith)
          have h2 : 0 ≤ (l2 - l1) * (g m - g l1) := mul_nonneg (by linarith) (by linarith)
          have h3 : g m - g l1 = 0 := by
            rcases mul_eq_zero.1 (le_antisymm (h0.trans h1) h2) with h | h
            · linarith
            · exact h
          linarith
        refine ih _ b (by linarith) hhi hmid2 (by linarith)
          ⟨l2, ⟨by linarith, by linarith, fun x hx1 hx2 => by
            rw [heq]; exact hmax.2.2 x hx1 hx2⟩, by linarith, by linarith⟩

end binary

section iter
variable {R S : Type*} [Field R] [LinearOrder S]

/-- The best-so-far loop: either nothing beat the start value, or the first maximum won. -/
theorem iterLoop_spec (g : R → S) (l : List R) (st : R × S) :
    (iterLoop g l st = st ∧ ∀ x ∈ l, g x ≤ st.2) ∨
    ∃ j : Nat, ∃ x, l[j]? = some x ∧ iterLoop g l st = (x, g x) ∧ st.2 < g x ∧
      (∀ y ∈ l, g y ≤ g x) ∧ ∀ i : Nat, i < j → ∀ y, l[i]? = some y → g y < g x := by
  induction l generalizing st with
  | nil => exact .inl ⟨rfl, by simp⟩
  | cons a l ih =>
    simp only [iterLoop]
    split
    · rename_i hc
      rcases ih (a, g a) with ⟨h1, h2⟩ | ⟨j, x, hj, h1, h2, h3, h4⟩
      · exact .inr ⟨0, a, rfl, h1, hc, by
          simpa using h2, by simp⟩
      · refine .inr ⟨j + 1, x, hj, h1, hc.trans h2, ?_, ?_⟩
        · intro y hy
          rcases List.mem_cons.1 hy with rfl | hy
          · exact h2.le
          · exact h3 y hy
        · intro i hi y hy
          cases i with
          | zero => simp only [List.getElem?_cons_zero, Option.some.injEq] at hy; subst hy; exact h2
          | succ i => exact h4 i (by omega) y hy
    · rename_i hc
      have hc : g a ≤ st.2 := not_lt.1 hc
      rcases ih st with ⟨h1, h2⟩ | ⟨j, x, hj, h1, h2, h3, h4⟩
      · exact .inl ⟨h1, by
          intro x hx
          rcases List.mem_cons.1 hx with rfl | hx
          · exact hc
          · exact h2 x hx⟩
      · refine .inr ⟨j + 1, x, hj, h1, h2, ?_, ?_⟩
        · intro y hy
          rcases List.mem_cons.1 hy with rfl | hy
          · exact hc.trans h2.le
          · exact h3 y hy
        · intro i hi y hy
          cases i with
          | zero =>
            simp only [List.getElem?_cons_zero, Option.some.injEq] at hy
            subst hy; exact hc.trans_lt h2
          | succ i => exact h4 i (by omega) y hy

end iter

section newton
open Matrix
variable {n : Nat}

/-- A step along `-(grad * M)` with `-M` positive semidefinite does not go downhill. -/
theorem step_uphill {F grad : Fin n → ℝ} {M : Matrix (Fin n) (Fin n) ℝ} (hM : (-M).PosSemidef)
    {lam : ℝ} (hl : 0 ≤ lam) : 0 ≤ grad ⬝ᵥ (F - lam • (grad ᵥ* M) - F) := by
  have h := hM.dotProduct_mulVec_nonneg grad
  have e : grad ⬝ᵥ (F - lam • (grad ᵥ* M) - F) = lam * (star grad ⬝ᵥ ((-M) *ᵥ grad)) := by
    rw [sub_sub_cancel_left, dotProduct_neg, dotProduct_smul, smul_eq_mul, neg_mulVec, dotProduct_neg,
      star_trivial, dotProduct_mulVec, dotProduct_comm grad (grad ᵥ* M)]
    ring
  rw [e]
  exact mul_nonneg hl h

/-- The Newton direction for a negative definite Hessian goes uphill. -/
theorem newton_uphill {F grad : Fin n → ℝ} {hess : Matrix (Fin n) (Fin n) ℝ}
    (hneg : (-hess).PosDef) {lam : ℝ} (hl : 0 < lam) :
    0 ≤ grad ⬝ᵥ (F - lam • descentDir grad hess npInv - F) ∧
      (grad ≠ 0 → 0 < grad ⬝ᵥ (F - lam • descentDir grad hess npInv - F)) := by
  have hdet : IsUnit hess.det := by
    have h1 := hneg.isUnit
    rw [IsUnit.neg_iff] at h1
    exact (Matrix.isUnit_iff_isUnit_det _).1 h1
  have hinv : npInv hess = some hess⁻¹ := by
    unfold npInv
    rw [if_pos hdet]
  have hpos : (-hess⁻¹).PosDef := by
    have := hneg.inv
    have e : (-hess)⁻¹ = -hess⁻¹ := by
      apply Matrix.inv_eq_left_inv
      rw [neg_mul_neg, Matrix.nonsing_inv_mul _ hdet]
    rwa [e] at this
  simp only [descentDir, hinv]
  refine ⟨step_uphill hpos.posSemidef hl.le, fun hg => ?_⟩
  have h := hpos.dotProduct_mulVec_pos hg
  have e : grad ⬝ᵥ (F - lam • (grad ᵥ* hess⁻¹) - F) = lam * (star grad ⬝ᵥ ((-hess⁻¹) *ᵥ grad)) := by
    rw [sub_sub_cancel_left, dotProduct_neg, dotProduct_smul, smul_eq_mul, neg_mulVec, dotProduct_neg,
      star_trivial, dotProduct_mulVec, dotProduct_comm grad (grad ᵥ* hess⁻¹)]
    ring
  rw [e]
  exact mul_pos hl h

/-- Subtracting a multiple of the gradient goes downhill. -/
theorem gradient_downhill {F grad : Fin n → ℝ} (hg : grad ≠ 0) {lam : ℝ} (hl : 0 < lam) :
    grad ⬝ᵥ (F - lam • grad - F) < 0 := by
  rw [sub_sub_cancel_left, dotProduct_neg, dotProduct_smul, smul_eq_mul]
  have : 0 < grad ⬝ᵥ grad := by
    rw [← star_trivial grad]
    exact dotProduct_star_self_pos_iff.2 hg
  have := mul_pos hl this
  linarith

end newton

section loops
variable {σ : Type*}

theorem findModeLoop_steps (step : σ → Except PyErr (σ × Bool)) (maxloops fuel : Nat) (F₀ F : σ)
    (loops : Nat) (hs : Spec.Steps step F₀ loops F true) (hl : loops ≤ maxloops)
    (hf : maxloops + 2 ≤ fuel + loops) :
    (∃ F' k go', findModeLoop step maxloops fuel F true loops = some (.ok (F', k)) ∧
      k ≤ maxloops + 1 ∧ Spec.Steps step F₀ k F' go' ∧ (go' = false ∨ k = maxloops + 1)) ∨
    (∃ e F' k, findModeLoop step maxloops fuel F true loops = some (.error e) ∧
      k ≤ maxloops ∧ Spec.Steps step F₀ k F' true ∧ step F' = .error e) := by
  induction fuel generalizing F loops with
  | zero => omega
  | succ fuel ih =>
    simp only [findModeLoop, if_true]
    cases hstep : step F with
    | error e => exact .inr ⟨e, F, loops, rfl, hl, hs, hstep⟩
    | ok p =>
      obtain ⟨F', go'⟩ := p
      simp only
      have hs' := Spec.Steps.succ hs hstep
      by_cases hgt : loops + 1 > maxloops
      · rw [if_pos hgt]
        exact .inl ⟨F', loops + 1, go', rfl, by omega, hs', .inr (by omega)⟩
      · rw [if_neg hgt]
        cases go' with
        | true => exact ih F' (loops + 1) hs' (by omega) (by omega)
        | false =>
          refine .inl ⟨F', loops + 1, false, ?_, by omega, hs', .inl rfl⟩
          cases fuel with
          | zero => omega
          | succ fuel => simp [findModeLoop]

theorem linearLoop_steps (step : σ → Except PyErr (σ × Bool)) (maxloops fuel : Nat) (F₀ F : σ)
    (loops : Nat) (hs : Spec.Steps step F₀ loops F true) (hl : loops ≤ maxloops)
    (hf : maxloops + 1 ≤ fuel + loops) :
    (∃ F' k go', linearLoop step maxloops fuel F true loops = some (.ok (F', k)) ∧
      k ≤ maxloops ∧ Spec.Steps step F₀ k F' go' ∧ (go' = false ∨ k = maxloops)) ∨
    (∃ e F' k, linearLoop step maxloops fuel F true loops = some (.error e) ∧
      k < maxloops ∧ Spec.Steps step F₀ k F' true ∧ step F' = .error e) := by
  induction fuel generalizing F loops with
  | zero => omega
  | succ fuel ih =>
    simp only [linearLoop, true_and]
    by_cases hlt : loops < maxloops
    · rw [if_pos hlt]
      cases hstep : step F with
      | error e => exact .inr ⟨e, F, loops, rfl, hlt, hs, hstep⟩
      | ok p =>
        obtain ⟨F', go'⟩ := p
        simp only
        have hs' := Spec.Steps.succ hs hstep
        cases go' with
        | true => exact ih F' (loops + 1) hs' (by omega) (by omega)
        | false =>
          refine .inl ⟨F', loops + 1, false, ?_, by omega, hs', .inl rfl⟩
          cases fuel with
          | zero => omega
          | succ fuel => simp [linearLoop]
    · rw [if_neg hlt]
      exact .inl ⟨F, loops, true, rfl, hl, hs, .inr (by omega)⟩

end loops

end Lop
