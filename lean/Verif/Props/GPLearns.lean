import Verif.Proofs.GPLearns
import Verif.Props.UcbRegret

/-! # C129: `GP` learns every function of its space -/

namespace Lop.Props

open Spec Matrix

variable {d n : Nat}

/-- C129, variance: where `N` measurements with noise at most `s` were taken at points close to a predicted point, the returned variance
is at most `rho² + s/N`, whatever was measured there and elsewhere. -/
theorem C129_variance (k : KExpr ℝ (Pt d)) (hok : AllLeaves (LeafOK (d = 1)) k) (hq : AllLeaves NoNoise k) (mean : Pt d → ℝ)
    (rows : List (Pt d × ℝ × ℝ)) (hne : rows ≠ []) {s : ℝ} (hs : ∀ r ∈ rows, 0 < r.2.2 ∧ r.2.2 ≤ s) (X : Fin n → Pt d) (hn : 0 < n) :
    ∃ p, gpRegress (kcov k) mean (gpAdd mean none rows) X = .ok p ∧ ∀ i, 0 ≤ p.sigma i ∧
      ∀ rho, 0 < closeRows k rho (X i) rows → p.sigma i ≤ rho ^ 2 + s / closeRows k rho (X i) rows := by
  set rows' : List (Pt d × ℝ × ℝ) := rows.map fun r => (r.1, r.2.1 - mean r.1, r.2.2) with hrows'
  have hst : gpAdd mean none rows = some rows' := rfl
  have hs' : ∀ r ∈ rows', 0 < r.2.2 ∧ r.2.2 ≤ s := by
    intro r hr
    obtain ⟨r0, h0, rfl⟩ := List.mem_map.1 hr
    exact hs r0 h0
  obtain ⟨p, hp⟩ := C43_returns k hok (quiet_of_noNoise k hq) mean rows' (by simpa [hrows'] using hne) (fun r hr => (hs' r hr).1) X hn
  refine ⟨p, by rw [hst, hp], fun i => ⟨?_, fun rho hN => ?_⟩⟩
  · obtain ⟨_, -, -, -, h2⟩ := C43_posterior k hok (quiet_of_noNoise k hq) mean rows' (fun r hr => (hs' r hr).1.le) X hn hp
    exact (h2 i).2.1
  · have e := closeRows_map k rho (X i) rows mean
    rw [← hrows'] at e
    rw [← e] at hN ⊢
    exact var_le_close hok hq hs' hp i hN

/-- C129, error: if `f - mean_func` has kernel norm at most `B` and `misfit` is the sum of the squared measurement errors over their noises, then
the returned mean is within `sqrt(B² + misfit) sqrt(rho² + s/N)` of `f`. -/
theorem C129_error (k : KExpr ℝ (Pt d)) (hok : AllLeaves (LeafOK (d = 1)) k) (hq : AllLeaves NoNoise k) (mean f : Pt d → ℝ) {B : ℝ}
    (hB : InBall k B fun x => f x - mean x) (rows : List (Pt d × ℝ × ℝ)) (hne : rows ≠ []) {s : ℝ}
    (hs : ∀ r ∈ rows, 0 < r.2.2 ∧ r.2.2 ≤ s) (X : Fin n → Pt d) (hn : 0 < n) :
    ∃ p, gpRegress (kcov k) mean (gpAdd mean none rows) X = .ok p ∧ ∀ i rho, 0 < closeRows k rho (X i) rows →
      |f (X i) - p.mu i| ≤ Real.sqrt (B ^ 2 + misfit f rows) * Real.sqrt (rho ^ 2 + s / closeRows k rho (X i) rows) := by
  obtain ⟨p, hp, h⟩ := C127_confidence k hok hq mean f hB rows hne (fun r hr => (hs r hr).1) X hn
  obtain ⟨p', hp', h'⟩ := C129_variance k hok hq mean rows hne hs X hn
  rw [hp] at hp'
  cases hp'
  exact ⟨p, hp, fun i rho hN => (h i).2.trans
    (mul_le_mul_of_nonneg_left (Real.sqrt_le_sqrt ((h' i).2 rho hN)) (Real.sqrt_nonneg _))⟩

/-- C129, learning: measurements with bounded noise and bounded misfit (none, if they are exact) are added one at a time. If the
measured points come back to every neighbourhood of each of the predicted points again and again, the returned means converge to the values of `f` there and
the returned variances to zero. -/
theorem C129_learns (k : KExpr ℝ (Pt d)) (hok : AllLeaves (LeafOK (d = 1)) k) (hq : AllLeaves NoNoise k) (mean f : Pt d → ℝ) {B : ℝ}
    (hB : InBall k B fun x => f x - mean x) (meas : Nat → Pt d × ℝ × ℝ) {s E : ℝ} (hs : ∀ t, 0 < (meas t).2.2 ∧ (meas t).2.2 ≤ s)
    (hE : ∀ T, misfit f ((List.range T).map meas) ≤ E) (X : Fin n → Pt d) (hn : 0 < n) (hX : ∀ i, MeasuredNear meas (X i))
    {eps : ℝ} (heps : 0 < eps) :
    ∃ T0, ∀ T ≥ T0, ∃ p, gpRegress (kcov k) mean ((List.range T).foldl (fun st t => gpAdd mean st [meas t]) none) X = .ok p ∧
      ∀ i, |f (X i) - p.mu i| ≤ eps ∧ 0 ≤ p.sigma i ∧ p.sigma i ≤ eps := by
  have hs0 : 0 < s := (hs 0).1.trans_le (hs 0).2
  have hE0 : 0 ≤ E := by simpa [misfit] using hE 0
  set C : ℝ := B ^ 2 + E with hC
  have hC0 : 0 ≤ C := by positivity
  obtain ⟨v, hv0, hv1, hv2⟩ : ∃ v > 0, v ≤ eps ∧ C * v ≤ eps ^ 2 := by
    refine ⟨min eps (eps ^ 2 / (C + 1)), lt_min heps (by positivity), min_le_left _ _, ?_⟩
    have : C * min eps (eps ^ 2 / (C + 1)) ≤ C * (eps ^ 2 / (C + 1)) := mul_le_mul_of_nonneg_left (min_le_right _ _) hC0
    refine this.trans ?_
    rw [mul_div_assoc', div_le_iff₀ (by positivity)]
    nlinarith [sq_nonneg eps]
  set rho : ℝ := Real.sqrt (v / 2) with hrho
  have hrho0 : 0 < rho := Real.sqrt_pos.2 (by positivity)
  have hrho2 : rho ^ 2 = v / 2 := Real.sq_sqrt (by positivity)
  obtain ⟨N, hN⟩ := exists_nat_gt (2 * s / v)
  have hclose : ∀ i, ∃ T0, ∀ T ≥ T0, N ≤ closeRows k rho (X i) ((List.range T).map meas) := fun i => by
    obtain ⟨delta, hd, hz⟩ := close_of_near k hq (X i) hrho0
    refine closeRows_unbounded k rho (X i) meas (fun T => ?_) N
    obtain ⟨t, ht, hc⟩ := hX i delta hd T
    exact ⟨t, ht, hz _ hc⟩
  choose T1 hT1 using hclose
  refine ⟨(∑ i, T1 i) + 1, fun T hT => ?_⟩
  have hT0 : 0 < T := by omega
  have hne : (List.range T).map meas ≠ [] := by simp; omega
  have hs' : ∀ r ∈ (List.range T).map meas, 0 < r.2.2 ∧ r.2.2 ≤ s := by
    intro r hr
    obtain ⟨t, -, rfl⟩ := List.mem_map.1 hr
    exact hs t
  obtain ⟨p, hp, h⟩ := C129_error k hok hq mean f hB _ hne hs' X hn
  obtain ⟨p', hp', h'⟩ := C129_variance k hok hq mean _ hne hs' X hn
  rw [hp] at hp'
  cases hp'
  rw [gpAdd_fold mean meas hT0]
  refine ⟨p, hp, fun i => ?_⟩
  have hTi : T1 i ≤ T := le_trans (Finset.single_le_sum (fun j _ => Nat.zero_le (T1 j)) (Finset.mem_univ i)) (by omega)
  have hNi := hT1 i T hTi
  have hNr : (0 : ℝ) < N := lt_of_le_of_lt (by positivity) hN
  have hcl : (0 : ℝ) < closeRows k rho (X i) ((List.range T).map meas) := hNr.trans_le (by exact_mod_cast hNi)
  have hbound : rho ^ 2 + s / closeRows k rho (X i) ((List.range T).map meas) ≤ v := by
    have h1 : s / closeRows k rho (X i) ((List.range T).map meas) ≤ v / 2 := by
      rw [div_le_iff₀ hcl]
      have h2 : 2 * s / v ≤ closeRows k rho (X i) ((List.range T).map meas) := hN.le.trans (by exact_mod_cast hNi)
      rw [div_le_iff₀ hv0] at h2
      linarith
    linarith
  refine ⟨?_, (h' i).1, ((h' i).2 rho (by exact_mod_cast hcl)).trans (hbound.trans hv1)⟩
  refine (h i rho (by exact_mod_cast hcl)).trans ?_
  rw [← Real.sqrt_mul' _ (by positivity)]
  refine Real.sqrt_le_iff.2 ⟨heps.le, le_trans ?_ hv2⟩
  have hCm : B ^ 2 + misfit f ((List.range T).map meas) ≤ C := by linarith [hE T]
  have h0 : 0 ≤ rho ^ 2 + s / closeRows k rho (X i) ((List.range T).map meas) := by positivity
  exact (mul_le_mul_of_nonneg_right hCm h0).trans (mul_le_mul_of_nonneg_left hbound hC0)

/-- C129, how close is close: for `RBF_kern(sigma, l)` two points at Euclidean distance `D` are within `sigma D/l`. -/
theorem C129_rbf (s : ℝ) {l : ℝ} (hl : l ≠ 0) {rho : ℝ} {x z : Pt d} (h : s ^ 2 * sqDist x z ≤ rho ^ 2 * l ^ 2) :
    KernelClose (.leaf (.rbf s l 0) : KExpr ℝ (Pt d)) rho x z := by
  intro c hc
  simp only [KExpr.cov, KLeaf.cov] at hc
  rw [rbfCov_ok (by omega)] at hc
  cases hc
  have hself : ∀ y : Pt d, sqDist y y = 0 := fun y => by simp [sqDist]
  have hsym : sqDist z x = sqDist x z := Finset.sum_congr rfl fun i _ => by ring
  have hl2 : 0 < l ^ 2 := by positivity
  have he := Real.add_one_le_exp (-sqDist x z / (2 * l * l))
  simp [noiseTerm_zero, rbfEval, hself, hsym]
  have h2 : s ^ 2 * (sqDist x z / l ^ 2) ≤ rho ^ 2 := by
    rw [mul_div_assoc', div_le_iff₀ hl2]
    exact h
  have e : -sqDist x z / (2 * l * l) = -(sqDist x z / l ^ 2) / 2 := by
    field_simp
  rw [e] at he ⊢
  nlinarith [mul_le_mul_of_nonneg_left he (sq_nonneg s)]

/-! Instance: the default kernel in one dimension, the bump measured exactly at `0, 1, 0, 1, …`. -/

/-- Measurements at `0` and `1` in turn. -/
noncomputable def bumpMeas (t : Nat) : Pt 1 × ℝ × ℝ := (![(t % 2 : Nat)], bumpFn ![(t % 2 : Nat)], 1)

example {eps : ℝ} (heps : 0 < eps) :
    ∃ T0, ∀ T ≥ T0, ∃ p, gpRegress (kcov (.leaf (.rbf 1 1 0) : KExpr ℝ (Pt 1))) (fun _ => 0)
        ((List.range T).foldl (fun st t => gpAdd (fun _ => 0) st [bumpMeas t]) none) ![![0], ![1]] = .ok p ∧
      ∀ i : Fin 2, |bumpFn (![![0], ![1]] i) - p.mu i| ≤ eps ∧ 0 ≤ p.sigma i ∧ p.sigma i ≤ eps := by
  refine C129_learns (.leaf (.rbf 1 1 0) : KExpr ℝ (Pt 1)) (by simp [AllLeaves, LeafOK]) (by simp [AllLeaves, NoNoise, noiseOf]) (fun _ => 0)
    bumpFn (B := 1) (by simpa using bump_in_ball) bumpMeas (s := 1) (E := 0) (fun t => by simp [bumpMeas]) (fun T => ?_) _ (by norm_num)
    (fun i => ?_) heps
  · rw [misfit]
    refine le_of_eq (List.sum_eq_zero fun x hx => ?_)
    simp only [List.mem_map] at hx
    obtain ⟨r, ⟨t, -, rfl⟩, rfl⟩ := hx
    simp [bumpMeas]
  · intro delta hd T
    refine ⟨2 * T + i, by omega, fun c => ?_⟩
    fin_cases i <;> fin_cases c <;> simp [bumpMeas, hd, Nat.add_mod]

/-- At distance `1/2` the default kernel is within `1/2`. -/
example : KernelClose (.leaf (.rbf 1 1 0) : KExpr ℝ (Pt 1)) (1 / 2) ![0] ![1 / 2] :=
  C129_rbf 1 one_ne_zero (by simp [sqDist]; norm_num)

end Lop.Props
