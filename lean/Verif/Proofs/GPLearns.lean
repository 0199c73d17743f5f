import Verif.Spec.GPLearns
import Verif.Proofs.UcbRegret
import Mathlib.Analysis.SpecialFunctions.Trigonometric.Basic

/-! # Helper lemmas for learning a function with `GP` -/

namespace Lop

open Spec Matrix

variable {d n t : Nat}

/-- An average of close points is close. -/
theorem quad_close_le {g : Pt d → Pt d → ℝ} (hsym : ∀ x y, g x y = g y x) (hpos : ∀ x y, 0 ≤ g x x + g y y - 2 * g x y)
    {x : Pt d} {Y : Fin t → Pt d} {w : Fin t → ℝ} (hw : ∀ j, 0 ≤ w j) (hw1 : ∑ j, w j = 1) {rho : ℝ}
    (hc : ∀ j, w j ≠ 0 → g x x + g (Y j) (Y j) - 2 * g x (Y j) ≤ rho ^ 2) :
    g x x - 2 * (w ⬝ᵥ fun j => g x (Y j)) + w ⬝ᵥ ((Matrix.of fun i j => g (Y i) (Y j)) *ᵥ w) ≤ rho ^ 2 := by
  have h1 : w ⬝ᵥ ((Matrix.of fun i j => g (Y i) (Y j)) *ᵥ w) ≤ ∑ j, w j * g (Y j) (Y j) := by
    have e : ∑ j, w j * g (Y j) (Y j) = ∑ i, ∑ j, w i * w j * ((g (Y i) (Y i) + g (Y j) (Y j)) / 2) := by
      have e1 : ∑ i, ∑ j, w i * w j * g (Y i) (Y i) = ∑ j, w j * g (Y j) (Y j) := by
        refine Finset.sum_congr rfl fun i _ => ?_
        have : ∀ j, w i * w j * g (Y i) (Y i) = w j * (w i * g (Y i) (Y i)) := fun j => by ring
        simp only [this]
        rw [← Finset.sum_mul, hw1, one_mul]
      have e2 : ∑ i, ∑ j, w i * w j * g (Y j) (Y j) = ∑ j, w j * g (Y j) (Y j) := by
        rw [Finset.sum_comm, ← e1]
        exact Finset.sum_congr rfl fun i _ => Finset.sum_congr rfl fun j _ => by ring
      have e3 : ∀ i j, w i * w j * ((g (Y i) (Y i) + g (Y j) (Y j)) / 2) =
          (w i * w j * g (Y i) (Y i)) / 2 + (w i * w j * g (Y j) (Y j)) / 2 := fun i j => by ring
      simp only [e3, Finset.sum_add_distrib, ← Finset.sum_div, e1, e2]
      ring
    rw [e]
    simp only [dotProduct, mulVec, Matrix.of_apply, Finset.mul_sum]
    refine Finset.sum_le_sum fun i _ => Finset.sum_le_sum fun j _ => ?_
    have := hpos (Y i) (Y j)
    have hij := mul_nonneg (hw i) (hw j)
    nlinarith
  have h2 : ∑ j, w j * (g x x + g (Y j) (Y j) - 2 * g x (Y j)) ≤ ∑ j, w j * rho ^ 2 := by
    refine Finset.sum_le_sum fun j _ => ?_
    rcases eq_or_ne (w j) 0 with h | h
    · rw [h, zero_mul, zero_mul]
    · exact mul_le_mul_of_nonneg_left (hc j h) (hw j)
  rw [← Finset.sum_mul, hw1, one_mul] at h2
  have e : ∑ j, w j * (g x x + g (Y j) (Y j) - 2 * g x (Y j)) =
      g x x + ∑ j, w j * g (Y j) (Y j) - 2 * (w ⬝ᵥ fun j => g x (Y j)) := by
    have : ∀ j, w j * (g x x + g (Y j) (Y j) - 2 * g x (Y j)) =
        w j * g x x + w j * g (Y j) (Y j) - 2 * (w j * g x (Y j)) := fun j => by ring
    simp only [this, Finset.sum_sub_distrib, Finset.sum_add_distrib, ← Finset.sum_mul, hw1, one_mul, ← Finset.mul_sum, dotProduct]
  linarith

/-- Closeness in terms of the kernel function. -/
theorem kernelClose_iff {k : KExpr ℝ (Pt d)} {g : Pt d → Pt d → ℝ}
    (hg : ∀ {n m : Nat} (X : Fin n → Pt d) (Y : Fin m → Pt d) c, k.cov X Y = .ok c → ∀ i j, c i j = g (X i) (Y j))
    {rho : ℝ} {x z : Pt d} : KernelClose k rho x z ↔ g x x + g z z - g x z - g z x ≤ rho ^ 2 := by
  obtain ⟨c, hc⟩ := cov_returns k ![x, z] ![x, z] (by norm_num)
  have e : ∀ c, k.cov ![x, z] ![x, z] = .ok c → c 0 0 + c 1 1 - c 0 1 - c 1 0 = g x x + g z z - g x z - g z x := by
    intro c hc
    simp [hg _ _ c hc]
  exact ⟨fun h => by rw [← e c hc]; exact h c hc, fun h c hc => by rw [e c hc]; exact h⟩

/-- The variance where `N` close points were measured. -/
theorem var_le_close {k : KExpr ℝ (Pt d)} (hok : AllLeaves (LeafOK (d = 1)) k) (hq : AllLeaves NoNoise k) {s rho : ℝ} {mean : Pt d → ℝ}
    {rows : List (Pt d × ℝ × ℝ)} (hr : ∀ r ∈ rows, 0 < r.2.2 ∧ r.2.2 ≤ s) {X : Fin n → Pt d} {p : GPPred n}
    (h : gpRegress (kcov k) mean (some rows) X = .ok p) (i : Fin n) (hN : 0 < closeRows k rho (X i) rows) :
    p.sigma i ≤ rho ^ 2 + s / closeRows k rho (X i) rows := by
  classical
  obtain ⟨g, hg, hsym, hpos, -⟩ := kernel_fn k hok hq
  obtain ⟨D, hDd, hD, -, hsig, hcov⟩ := gp_entries hg h
  set x := X i with hx
  set N : Nat := closeRows k rho x rows with hNd
  have hNr : (0 : ℝ) < N := by exact_mod_cast hN
  let w : Fin rows.length → ℝ := fun j => if KernelClose k rho x (rows.get j).1 then 1 / (N : ℝ) else 0
  have hw : ∀ j, 0 ≤ w j := fun j => by
    simp only [w]
    split_ifs <;> positivity
  have hW : ∑ j, w j = 1 := by
    have := sum_indicator rows (fun r => KernelClose k rho x r.1) (1 / (N : ℝ))
    have hN' : ((rows.filter fun a => decide (KernelClose k rho x a.1)).length : ℝ) = N := by
      rw [hNd, closeRows]
    rw [hN'] at this
    rw [show ∑ j, w j = (N : ℝ) * (1 / N) from this]
    field_simp
  have hp2 : ∀ x y, 0 ≤ g x x + g y y - 2 * g x y := fun x y => by
    have := hpos x (t := 1) (fun _ => y) (fun _ => 1)
    simp [dotProduct, mulVec] at this
    linarith
  have hle := var_le_weights hD (g x x) (fun j => g x (rows.get j).1) w
  have hS : w ⬝ᵥ ((diagonal fun j : Fin rows.length => (rows.get j).2.2) *ᵥ w) ≤ s / N := by
    have e : s / N = ∑ j, w j * (s * (1 / N)) := by rw [← Finset.sum_mul, hW]; ring
    rw [e]
    refine Finset.sum_le_sum fun j _ => ?_
    rw [mulVec_diagonal]
    refine mul_le_mul_of_nonneg_left ?_ (hw j)
    have hj := hr _ (List.get_mem rows j)
    have hwj : w j ≤ 1 / N := by
      simp only [w]
      split_ifs
      · exact le_rfl
      · positivity
    exact mul_le_mul hj.2 hwj (hw j) (hj.1.le.trans hj.2)
  have hQ := quad_close_le (g := g) (rho := rho) hsym hp2 (x := x) (Y := fun j => (rows.get j).1) hw hW (fun j hj => by
    have hc : KernelClose k rho x (rows.get j).1 := by
      by_contra hcon
      exact hj (by simp only [w, if_neg hcon])
    have := (kernelClose_iff hg).1 hc
    rw [hsym (rows.get j).1 x] at this
    linarith)
  have hDw : w ⬝ᵥ (D *ᵥ w) = w ⬝ᵥ ((Matrix.of fun i j => g (rows.get i).1 (rows.get j).1) *ᵥ w) +
      w ⬝ᵥ ((diagonal fun j : Fin rows.length => (rows.get j).2.2) *ᵥ w) := by
    rw [hDd, add_mulVec, dotProduct_add]
  rw [hsig i, hcov i]
  have hs0 : 0 ≤ s / N := by
    refine le_trans ?_ hS
    refine Finset.sum_nonneg fun j _ => ?_
    rw [mulVec_diagonal]
    exact mul_nonneg (hw j) (mul_nonneg (hr _ (List.get_mem rows j)).1.le (hw j))
  refine max_le (by positivity) (hle.trans ?_)
  rw [hDw]
  linarith

theorem continuous_l1Dist : Continuous fun p : Pt d × Pt d => l1Dist p.1 p.2 := by
  unfold l1Dist; fun_prop

theorem continuous_rbfEval (s l : ℝ) {α : Type*} [TopologicalSpace α] {u v : α → Pt d} (hu : Continuous u) (hv : Continuous v) :
    Continuous fun a => rbfEval s l (u a) (v a) := by
  unfold rbfEval sqDist
  fun_prop

theorem continuous_zeroedEval (s l : ℝ) (z : Pt d) :
    Continuous fun p : Pt d × Pt d => rbfEval s l p.1 p.2 - rbfEval s l p.1 z * rbfEval s l z p.2 / (s * s) :=
  (continuous_rbfEval s l continuous_fst continuous_snd).sub
    (((continuous_rbfEval s l continuous_fst continuous_const).mul (continuous_rbfEval s l continuous_const continuous_snd)).div_const _)

/-- Noise-free kernels are continuous. -/
theorem kernel_continuous (k : KExpr ℝ (Pt d)) (hq : AllLeaves NoNoise k) {g : Pt d → Pt d → ℝ}
    (hg : ∀ {n m : Nat} (X : Fin n → Pt d) (Y : Fin m → Pt d) c, k.cov X Y = .ok c → ∀ i j, c i j = g (X i) (Y j)) :
    Continuous fun p : Pt d × Pt d => g p.1 p.2 := by
  have one : ∀ x y, ∃ c, k.cov (fun _ : Fin 1 => x) (fun _ : Fin 1 => y) = .ok c ∧ g x y = c 0 0 := fun x y => by
    obtain ⟨c, hc⟩ := cov_returns k (fun _ : Fin 1 => x) (fun _ : Fin 1 => y) (by norm_num)
    exact ⟨c, hc, (hg _ _ c hc 0 0).symm⟩
  induction k generalizing g with
  | leaf k =>
    cases k with
    | rbf s l noise =>
      have hq0 : noise = 0 := hq
      subst hq0
      refine (continuous_rbfEval s l continuous_fst continuous_snd).congr fun p => ?_
      obtain ⟨c, hc, e⟩ := one p.1 p.2
      simp only [KExpr.cov, KLeaf.cov] at hc
      rw [rbfCov_ok (by omega)] at hc
      cases hc
      rw [e]
      simp [noiseTerm_zero]
    | zeroed s l z noise =>
      have hq0 : noise = 0 := hq
      subst hq0
      refine (continuous_zeroedEval s l (zeroPt z)).congr fun p => ?_
      obtain ⟨c, hc, e⟩ := one p.1 p.2
      rw [e, zeroedCov_entry hc]
      simp [noiseTerm_zero]
    | linear s b c =>
      have h1 : Continuous fun p : Pt d × Pt d => linEval s b c p.1 p.2 := by
        unfold linEval; fun_prop
      refine h1.congr fun p => ?_
      obtain ⟨c, hc, e⟩ := one p.1 p.2
      simp only [KExpr.cov, KLeaf.cov, Except.ok.injEq] at hc
      subst hc
      rw [e]; rfl
    | periodic s l p =>
      have h1 : Continuous fun q : Pt d × Pt d => perEval s l p q.1 q.2 := by
        have := continuous_l1Dist (d := d)
        unfold perEval perExp
        fun_prop
      refine h1.congr fun q => ?_
      obtain ⟨c, hc, e⟩ := one q.1 q.2
      simp only [KExpr.cov, KLeaf.cov, Except.ok.injEq] at hc
      subst hc
      rw [e]; rfl
  | dual op a b iha ihb =>
    obtain ⟨ga, ha⟩ := cov_pointwise a hq.1
    obtain ⟨gb, hb⟩ := cov_pointwise b hq.2
    have one' : ∀ {k : KExpr ℝ (Pt d)} {g : Pt d → Pt d → ℝ}
        (_ : ∀ {n m : Nat} (X : Fin n → Pt d) (Y : Fin m → Pt d) c, k.cov X Y = .ok c → ∀ i j, c i j = g (X i) (Y j)),
        ∀ x y, ∃ c, k.cov (fun _ : Fin 1 => x) (fun _ : Fin 1 => y) = .ok c ∧ g x y = c 0 0 := fun {k g} hg x y => by
      obtain ⟨c, hc⟩ := cov_returns k (fun _ : Fin 1 => x) (fun _ : Fin 1 => y) (by norm_num)
      exact ⟨c, hc, (hg _ _ c hc 0 0).symm⟩
    have hca := iha hq.1 ha (one' ha)
    have hcb := ihb hq.2 hb (one' hb)
    cases op with
    | add =>
      refine (hca.add hcb).congr fun p => ?_
      obtain ⟨c, hc, e⟩ := one p.1 p.2
      obtain ⟨ca, cb, hca, hcb, e'⟩ := dual_cov_inv hc
      rw [e, e']
      simp only [ha _ _ ca hca, hb _ _ cb hcb]
      rfl
    | mul =>
      refine (hca.mul hcb).congr fun p => ?_
      obtain ⟨c, hc, e⟩ := one p.1 p.2
      obtain ⟨ca, cb, hca, hcb, e'⟩ := dual_cov_inv hc
      rw [e, e']
      simp only [ha _ _ ca hca, hb _ _ cb hcb]
      rfl

/-- Points near `x` are close to it for the kernel. -/
theorem close_of_near (k : KExpr ℝ (Pt d)) (hq : AllLeaves NoNoise k) (x : Pt d) {rho : ℝ} (hrho : 0 < rho) :
    ∃ delta > 0, ∀ z : Pt d, (∀ c, |z c - x c| < delta) → KernelClose k rho x z := by
  obtain ⟨g, hg⟩ := cov_pointwise k hq
  have hc := kernel_continuous k hq hg
  have h : Continuous fun z : Pt d => g x x + g z z - g x z - g z x :=
    ((continuous_const.add (hc.comp (continuous_id.prodMk continuous_id))).sub (hc.comp (continuous_const.prodMk continuous_id))).sub
      (hc.comp (continuous_id.prodMk continuous_const))
  have h0 := Metric.continuousAt_iff.1 (h.continuousAt (x := x)) (rho ^ 2) (by positivity)
  obtain ⟨delta, hd, hz⟩ := h0
  refine ⟨delta, hd, fun z hzz => (kernelClose_iff hg).2 ?_⟩
  have := hz (x := z) ((dist_pi_lt_iff hd).2 fun c => by rw [Real.dist_eq]; exact hzz c)
  rw [Real.dist_eq] at this
  have h2 := (abs_lt.1 this).2
  linarith

/-- Adding measurements one at a time. -/
theorem gpAdd_fold (mean : Pt d → ℝ) (meas : Nat → Pt d × ℝ × ℝ) {T : Nat} (hT : 0 < T) :
    (List.range T).foldl (fun st t => gpAdd mean st [meas t]) none = gpAdd mean none ((List.range T).map meas) := by
  induction T with
  | zero => omega
  | succ T ih =>
    rcases Nat.eq_zero_or_pos T with h | h
    · subst h; rfl
    · rw [List.range_succ, List.foldl_append, ih h]
      simp [gpAdd]

theorem closeRows_append (k : KExpr ℝ (Pt d)) (rho : ℝ) (x : Pt d) (a b : List (Pt d × ℝ × ℝ)) :
    closeRows k rho x (a ++ b) = closeRows k rho x a + closeRows k rho x b := by
  simp [closeRows]

theorem closeRows_map (k : KExpr ℝ (Pt d)) (rho : ℝ) (x : Pt d) (a : List (Pt d × ℝ × ℝ)) (mean : Pt d → ℝ) :
    closeRows k rho x (a.map fun r => (r.1, r.2.1 - mean r.1, r.2.2)) = closeRows k rho x a := by
  simp [closeRows, List.filter_map, Function.comp_def]

/-- Infinitely many close measurements are eventually more than `N`. -/
theorem closeRows_unbounded (k : KExpr ℝ (Pt d)) (rho : ℝ) (x : Pt d) (meas : Nat → Pt d × ℝ × ℝ)
    (h : ∀ T : Nat, ∃ t ≥ T, KernelClose k rho x (meas t).1) (N : Nat) :
    ∃ T0, ∀ T ≥ T0, N ≤ closeRows k rho x ((List.range T).map meas) := by
  have mono : ∀ T, closeRows k rho x ((List.range T).map meas) ≤ closeRows k rho x ((List.range (T + 1)).map meas) := fun T => by
    rw [List.range_succ, List.map_append, closeRows_append]
    omega
  have hm : Monotone fun T => closeRows k rho x ((List.range T).map meas) := monotone_nat_of_le_succ mono
  induction N with
  | zero => exact ⟨0, fun _ _ => Nat.zero_le _⟩
  | succ N ih =>
    obtain ⟨T0, hT0⟩ := ih
    obtain ⟨t, ht, hc⟩ := h T0
    refine ⟨t + 1, fun T hT => le_trans ?_ (hm hT)⟩
    simp only [List.range_succ, List.map_append, closeRows_append]
    have h1 := hT0 t ht
    have h2 : closeRows k rho x (List.map meas [t]) = 1 := by simp [closeRows, hc]
    omega

end Lop
