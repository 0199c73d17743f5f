import Verif.Proofs.CovEntries

/-! Chunked prediction. -/

namespace Lop

open Spec

variable {d : Nat}

/-- The chunks visited by `predict_large`. -/
def chunks15 {α : Type*} : Nat → List α → List (List α)
  | 0, _ => []
  | r + 1, X => X.take 15 :: chunks15 r (X.drop 15)

theorem chunks15_flatten {α : Type*} (r : Nat) (X : List α) (h : X.length ≤ 15 * r) :
    (chunks15 r X).flatten = X := by
  induction r generalizing X with
  | zero =>
    have : X = [] := List.length_eq_zero_iff.1 (by omega)
    simp [chunks15, this]
  | succ r ih =>
    simp only [chunks15, List.flatten_cons]
    rw [ih _ (by rw [List.length_drop]; omega), List.take_append_drop]

theorem chunks15_mem {α : Type*} (r : Nat) (X : List α) (h : 15 * r < X.length + 15)
    {c : List α} (hc : c ∈ chunks15 r X) : c ≠ [] ∧ c.length ≤ 15 := by
  induction r generalizing X with
  | zero => simp [chunks15] at hc
  | succ r ih =>
    simp only [chunks15, List.mem_cons] at hc
    rcases hc with rfl | hc
    · constructor
      · intro h0
        have := congrArg List.length h0
        simp only [List.length_take, List.length_nil] at this
        omega
      · rw [List.length_take]; omega
    · by_cases hr : r = 0
      · subst hr; simp [chunks15] at hc
      · exact ih _ (by rw [List.length_drop]; omega) hc

theorem predictRuns_chunks (predict : List (Pt d) → Except PyErr (List ℝ × List ℝ))
    (X : List (Pt d)) (runs i : Nat) (hlen : X.length ≤ 15 * (i + runs))
    (hi : 15 * (i + runs) < X.length + 15)
    (p : List (Pt d) → List ℝ × List ℝ)
    (hp : ∀ c ∈ chunks15 runs (X.drop (15 * i)), predict c = .ok (p c) ∧
      (p c).1.length = c.length ∧ (p c).2.length = c.length)
    (m0 s0 mj sj : List ℝ) (hm0 : m0.length = min X.length (15 * i))
    (hs0 : s0.length = min X.length (15 * i))
    (hmj : mj.length = X.length - 15 * i) (hsj : sj.length = X.length - 15 * i) :
    gpPredictRuns predict X runs i (m0 ++ mj, s0 ++ sj) =
      .ok (m0 ++ ((chunks15 runs (X.drop (15 * i))).map fun c => (p c).1).flatten,
        s0 ++ ((chunks15 runs (X.drop (15 * i))).map fun c => (p c).2).flatten) := by
  induction runs generalizing i m0 s0 mj sj with
  | zero =>
    have h1 : mj = [] := List.length_eq_zero_iff.1 (by omega)
    have h2 : sj = [] := List.length_eq_zero_iff.1 (by omega)
    simp [gpPredictRuns, chunks15, h1, h2]
  | succ r ih =>
    have hc : (X.take (min X.length (i * 15 + 15))).drop (i * 15) = (X.drop (15 * i)).take 15 := by
      rw [List.drop_take]
      rw [Nat.mul_comm i 15]
      rcases le_total X.length (15 * i + 15) with h | h
      · rw [min_eq_left h, List.take_of_length_le (by rw [List.length_drop]),
          List.take_of_length_le (by rw [List.length_drop]; omega)]
      · rw [min_eq_right h, Nat.add_sub_cancel_left]
    have hp0 := hp ((X.drop (15 * i)).take 15) (by simp [chunks15])
    have hlt : 15 * i < X.length := by omega
    have hmin : min X.length (15 * i) = 15 * i := by omega
    set c := (X.drop (15 * i)).take 15 with hcdef
    have hclen : c.length = min 15 (X.length - 15 * i) := by
      rw [hcdef, List.length_take, List.length_drop]
    simp only [gpPredictRuns, hc, hp0.1]
    have e1 : (m0 ++ mj).take (i * 15) = m0 := by
      rw [List.take_left' (by omega)]
    have e2 : (s0 ++ sj).take (i * 15) = s0 := by
      rw [List.take_left' (by omega)]
    have e3 : (m0 ++ mj).drop (min X.length (i * 15 + 15)) = mj.drop c.length := by
      rw [List.drop_append, List.drop_of_length_le (by omega), List.nil_append]
      congr 1
      omega
    have e4 : (s0 ++ sj).drop (min X.length (i * 15 + 15)) = sj.drop c.length := by
      rw [List.drop_append, List.drop_of_length_le (by omega), List.nil_append]
      congr 1
      omega
    rw [e1, e2, e3, e4]
    have hdrop : X.drop (15 * (i + 1)) = (X.drop (15 * i)).drop 15 := by
      rw [List.drop_drop]
      congr 1
    have := ih (i + 1) (by omega) (by omega)
      (by
        intro c' hc'
        apply hp
        simp only [chunks15, List.mem_cons]
        right
        rw [← hdrop]; exact hc')
      (m0 ++ (p c).1) (s0 ++ (p c).2) (mj.drop c.length) (sj.drop c.length)
      (by rw [List.length_append, hp0.2.1]; omega) (by rw [List.length_append, hp0.2.2]; omega)
      (by rw [List.length_drop]; omega) (by rw [List.length_drop]; omega)
    rw [this]
    simp only [chunks15, List.map_cons, List.flatten_cons, List.append_assoc, hdrop, ← hcdef]

/-- Variance of the kernel at a point including observation noise, as on the diagonal of
`cov(X, X)`. -/
noncomputable def selfVar (x : Pt d) : KExpr ℝ (Pt d) → ℝ
  | .leaf k => k.eval x x + noiseOf k
  | .dual .add a b => selfVar x a + selfVar x b
  | .dual .mul a b => selfVar x a * selfVar x b

theorem cov_self_diag {n : Nat} (k : KExpr ℝ (Pt d)) (hnz : AllLeaves NotZeroed k)
    (X : Fin n → Pt d) {c} (hc : k.cov X X = .ok c) (i : Fin n) : c i i = selfVar (X i) k := by
  induction k generalizing c with
  | leaf k =>
    exact cov_entry_noise (.leaf k) hnz (by simp [OnlySums]) X X hc i i ⟨rfl, ⟨i.pos, i.pos, rfl⟩, rfl⟩
  | dual op a b iha ihb =>
    obtain ⟨ca, cb, ha, hb, hcc⟩ := dual_cov_inv hc
    rw [hcc i i]
    cases op <;> simp only [selfVar, iha hnz.1 ha, ihb hnz.2 hb]

/-- Without noise every entry is the pointwise value. -/
theorem cov_entry_noiseless {n m : Nat} (k : KExpr ℝ (Pt d)) (hnz : AllLeaves NotZeroed k)
    (hno : AllLeaves NoNoise k) (X : Fin n → Pt d) (Y : Fin m → Pt d) {c}
    (hc : k.cov X Y = .ok c) (i : Fin n) (j : Fin m) : c i j = k.eval (X i) (Y j) := by
  induction k generalizing c with
  | leaf k =>
    by_cases h : NoiseSpot X Y i j
    · rw [cov_entry_noise (.leaf k) hnz (by simp [OnlySums]) X Y hc i j h]
      have : noiseOf k = 0 := hno
      simp [noiseSum, this]
    · exact cov_entry (.leaf k) hnz X Y hc i j h
  | dual op a b iha ihb =>
    obtain ⟨ca, cb, ha, hb, hcc⟩ := dual_cov_inv hc
    rw [hcc i j]
    cases op <;> simp only [KExpr.eval, iha hnz.1 hno.1 ha, ihb hnz.2 hno.2 hb]

/-- Mean at a point. -/
noncomputable def meanAt (k : KExpr ℝ (Pt d)) {t : Nat} : Option (GPFit d t) → Pt d → ℝ
  | none, _ => 0
  | some f, x => ∑ j, k.eval x (f.xTrain j) * f.alpha j

/-- Variance at a point. -/
noncomputable def varAt (k : KExpr ℝ (Pt d)) {t : Nat} : Option (GPFit d t) → Pt d → ℝ
  | none, x => max 0 (selfVar x k)
  | some f, x => max 0 (selfVar x k -
      ∑ j, (∑ l, k.eval x (f.xTrain l) * f.tmp l j) * ∑ l, f.W j l * k.eval x (f.xTrain l))

/-- When no noise reaches the cross-covariance, prediction is pointwise. -/
theorem gpPredict_pointwise (k : KExpr ℝ (Pt d)) (hnz : AllLeaves NotZeroed k) {t : Nat}
    (fit : Option (GPFit d t)) (X : List (Pt d)) (hX : X ≠ [])
    (hcross : AllLeaves NoNoise k ∨ ∀ f, fit = some f → ∀ ht : 0 < t, f.xTrain ⟨0, ht⟩ ∉ X) :
    gpPredict (fun _ _ X Y => k.cov X Y) fit X = .ok (X.map (meanAt k fit), X.map (varAt k fit)) := by
  have hn : 0 < X.length := List.length_pos_of_ne_nil hX
  obtain ⟨ct, hct⟩ := cov_returns k X.get X.get hn
  have hmap : ∀ (f : Pt d → ℝ), X.map f = List.ofFn fun i => f (X.get i) := by
    intro f
    conv_lhs => rw [← List.ofFn_get X]
    rw [List.map_ofFn]
    rfl
  cases fit with
  | none =>
    simp only [gpPredict, hct]
    refine congrArg Except.ok (Prod.ext ?_ ?_)
    · exact (List.eq_replicate_iff.2 ⟨by simp, by simp [meanAt]⟩).symm
    · rw [hmap (varAt k none)]
      refine congrArg List.ofFn (funext fun i => ?_)
      simp only [varAt]
      rw [cov_self_diag k hnz X.get hct i]
  | some f =>
    obtain ⟨cx, hcx⟩ := cov_returns k X.get f.xTrain hn
    have hent : ∀ i j, cx i j = k.eval (X.get i) (f.xTrain j) := by
      intro i j
      rcases hcross with h | h
      · exact cov_entry_noiseless k hnz h X.get f.xTrain hcx i j
      · refine cov_entry k hnz X.get f.xTrain hcx i j ?_
        rintro ⟨_, ⟨h1, h2, h3⟩, _⟩
        exact h f rfl h2 (h3 ▸ List.get_mem X ⟨0, h1⟩)
    simp only [gpPredict, hcx, hct]
    refine congrArg Except.ok (Prod.ext ?_ ?_)
    · rw [hmap (meanAt k (some f))]
      refine congrArg List.ofFn (funext fun i => ?_)
      simp only [Matrix.mulVec, dotProduct, meanAt, hent]
    · rw [hmap (varAt k (some f))]
      refine congrArg List.ofFn (funext fun i => ?_)
      simp only [varAt]
      rw [cov_self_diag k hnz X.get hct i]
      simp only [Matrix.mul_apply, Matrix.transpose_apply, hent]

end Lop
