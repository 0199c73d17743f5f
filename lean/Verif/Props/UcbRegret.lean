import Verif.Proofs.UcbRegret
import Mathlib.Algebra.QuadraticDiscriminant
import Mathlib.Analysis.SpecialFunctions.Log.Basic
import Mathlib.Analysis.SpecialFunctions.Pow.Asymptotics

/-! # C127: learning a function with upper confidence bounds -/

namespace Lop.Props

open Spec Matrix

variable {d n : Nat}

/-- C127, confidence bands: if `f - mean_func` has kernel norm at most `B`, the prediction of `GP` from measurements `(x, y, noise)` of `f`
misses `f` by at most `sqrt(B^2 + sum (y - f(x))^2/noise)` standard deviations, at every predicted point. -/
theorem C127_confidence (k : KExpr ℝ (Pt d)) (hok : AllLeaves (LeafOK (d = 1)) k) (hq : AllLeaves NoNoise k) (mean f : Pt d → ℝ) {B : ℝ}
    (hB : InBall k B fun x => f x - mean x) (rows : List (Pt d × ℝ × ℝ)) (hne : rows ≠ []) (hs : ∀ r ∈ rows, 0 < r.2.2)
    (X : Fin n → Pt d) (hn : 0 < n) :
    ∃ p, gpRegress (kcov k) mean (gpAdd mean none rows) X = .ok p ∧ ∀ i, 0 ≤ p.sigma i ∧
      |f (X i) - p.mu i| ≤ Real.sqrt (B ^ 2 + (rows.map fun r => (r.2.1 - f r.1) ^ 2 / r.2.2).sum) * Real.sqrt (p.sigma i) := by
  obtain ⟨g, hg, hsym, hpos, hball⟩ := kernel_fn k hok hq
  set rows' : List (Pt d × ℝ × ℝ) := rows.map fun r => (r.1, r.2.1 - mean r.1, r.2.2) with hrows'
  have hs' : ∀ r ∈ rows', 0 < r.2.2 := by
    intro r hr
    obtain ⟨r0, h0, rfl⟩ := List.mem_map.1 hr
    exact hs r0 h0
  have hne' : rows' ≠ [] := by simpa [hrows'] using hne
  have hst : gpAdd mean none rows = some rows' := rfl
  rw [hst]
  obtain ⟨p, hp⟩ := C43_returns k hok (quiet_of_noNoise k hq) mean rows' hne' hs' X hn
  refine ⟨p, hp, fun i => ?_⟩
  obtain ⟨D, hDd, hD, hmu, -, hcov⟩ := gp_entries hg hp
  obtain ⟨_, -, -, -, h2⟩ := C43_posterior k hok (quiet_of_noNoise k hq) mean rows' (fun r hr => (hs' r hr).le) X hn hp
  have hsi := (h2 i).1.trans (hcov i)
  refine ⟨(h2 i).2.1, ?_⟩
  have hc := confidence_core (K := Matrix.of fun i j => g (rows'.get i).1 (rows'.get j).1) (s := fun j => (rows'.get j).2.2)
    (fun j => hs' _ (List.get_mem rows' j)) (hDd ▸ hD) (a := g (X i) (X i)) (B := B) (fx := f (X i) - mean (X i))
    (b := fun j => g (X i) (rows'.get j).1) (g := fun j => f (rows'.get j).1 - mean (rows'.get j).1) (y := fun j => (rows'.get j).2.1)
    (fun w => hball B _ hB (X i) _ w) (fun w => hpos (X i) _ w)
  rw [← hDd, ← hsi] at hc
  have hsum : ∑ j : Fin rows'.length, ((rows'.get j).2.1 - (f (rows'.get j).1 - mean (rows'.get j).1)) ^ 2 / (rows'.get j).2.2 =
      (rows.map fun r => (r.2.1 - f r.1) ^ 2 / r.2.2).sum := by
    have h3 : (rows.map fun r => (r.2.1 - f r.1) ^ 2 / r.2.2) =
        rows'.map fun r => (r.2.1 - (f r.1 - mean r.1)) ^ 2 / r.2.2 := by
      rw [hrows', List.map_map]
      refine List.map_congr_left fun r _ => ?_
      simp only [Function.comp]
      congr 2
      ring
    rw [h3, ← List.sum_ofFn]
    congr 1
    apply List.ext_getElem <;> simp
  rw [hsum] at hc
  have e : f (X i) - p.mu i = f (X i) - mean (X i) - (fun j => g (X i) (rows'.get j).1) ⬝ᵥ (D⁻¹ *ᵥ fun j => (rows'.get j).2.1) := by
    rw [hmu i]; ring
  rw [e, ← Real.sqrt_mul' _ (h2 i).2.1, ← Real.sqrt_sq_eq_abs]
  exact Real.sqrt_le_sqrt hc

/-- C127, which functions these are: every combination of kernel functions `sum c_j k(z_j, .)` has norm at most `B` as soon as
`sum c_i c_j k(z_i, z_j) ≤ B^2`. -/
theorem C127_combination (k : KExpr ℝ (Pt d)) (hok : AllLeaves (LeafOK (d = 1)) k) (hq : AllLeaves NoNoise k) {m : Nat}
    (Z : Fin m → Pt d) (a : Fin m → ℝ) {G : Matrix (Fin m) (Fin m) ℝ} (hm : 0 < m) (hG : k.cov Z Z = .ok G) (f : Pt d → ℝ)
    (hf : ∀ x C, k.cov (fun _ : Fin 1 => x) Z = .ok C → f x = ∑ j, a j * C 0 j) {B : ℝ}
    (hB : ∑ i, ∑ j, a i * a j * G i j ≤ B ^ 2) : InBall k B f := by
  obtain ⟨g, hg, hsym, -, -⟩ := kernel_fn k hok hq
  have hf' : ∀ x, f x = ∑ j, a j * g x (Z j) := fun x => by
    obtain ⟨C, hC⟩ := cov_returns k (fun _ : Fin 1 => x) Z (by norm_num)
    rw [hf x C hC]
    exact Finset.sum_congr rfl fun j _ => by rw [hg _ _ C hC]
  intro n X c hc w
  rcases Nat.eq_zero_or_pos n with hn | hn
  · subst hn
    simp
  obtain ⟨J, hJ⟩ := cov_returns k (Fin.append X Z) (Fin.append X Z) (by omega)
  have hpsd := cov_self_psd k hok hq _ (by omega) hJ
  have hcg : ∀ i j, c i j = g (X i) (X j) := hg _ _ c hc
  have hGg : ∀ i j, G i j = g (Z i) (Z j) := hg _ _ G hG
  have hquad : ∀ t : ℝ, 0 ≤ (∑ i, ∑ j, a i * a j * G i j) * (t * t) + (2 * ∑ i, w i * f (X i)) * t + ∑ i, ∑ j, w i * w j * c i j := by
    intro t
    have h := hpsd.dotProduct_mulVec_nonneg (Fin.append w fun j => t * a j)
    simp only [star_trivial, dotProduct, mulVec, Finset.mul_sum, Fin.sum_univ_add, Fin.append_left, Fin.append_right, hg _ _ J hJ] at h
    simp only [mul_add, Finset.mul_sum, Finset.sum_add_distrib] at h
    refine le_of_le_of_eq h ?_
    simp only [hcg, hGg, hf', Finset.sum_add_distrib]
    have e1 : ∑ i, ∑ j, w i * (g (X i) (Z j) * (t * a j)) = (∑ i, w i * ∑ j, a j * g (X i) (Z j)) * t := by
      rw [Finset.sum_mul]
      refine Finset.sum_congr rfl fun i _ => ?_
      rw [Finset.mul_sum, Finset.sum_mul]
      exact Finset.sum_congr rfl fun j _ => by ring
    have e2 : ∑ i, ∑ j, t * a i * (g (Z i) (X j) * w j) = (∑ i, w i * ∑ j, a j * g (X i) (Z j)) * t := by
      rw [Finset.sum_comm, ← e1]
      refine Finset.sum_congr rfl fun i _ => Finset.sum_congr rfl fun j _ => ?_
      rw [hsym (Z j)]
      ring
    have e3 : ∑ i, ∑ j, t * a i * (g (Z i) (Z j) * (t * a j)) = (∑ i, ∑ j, a i * a j * g (Z i) (Z j)) * (t * t) := by
      rw [Finset.sum_mul]
      refine Finset.sum_congr rfl fun i _ => ?_
      rw [Finset.sum_mul]
      exact Finset.sum_congr rfl fun j _ => by ring
    have e4 : ∑ i, ∑ j, w i * (g (X i) (X j) * w j) = ∑ i, ∑ j, w i * w j * g (X i) (X j) :=
      Finset.sum_congr rfl fun i _ => Finset.sum_congr rfl fun j _ => by ring
    rw [e1, e2, e3, e4]
    ring
  have hd := discrim_le_zero hquad
  have hc0 : 0 ≤ ∑ i, ∑ j, w i * w j * c i j := by simpa using hquad 0
  unfold discrim at hd
  nlinarith [mul_le_mul_of_nonneg_right hB hc0]

/-- C127, regret: learning with upper confidence bounds never raises, every pass selects `q` different candidates, and the regrets of `T` passes
add up to at most `2 alpha sqrt(T |S| (v + s) (1 + log T))`. -/
theorem C127_regret (k : KExpr ℝ (Pt d)) (hok : AllLeaves (LeafOK (d = 1)) k) (hq : AllLeaves NoNoise k) {f : Pt d → ℝ} {alpha s v : ℝ}
    (hal : 0 ≤ alpha) (hs : 0 < s) (hB : InBall k alpha f) {S : Finset (Pt d)} (hv0 : 0 ≤ v) (hv : VarianceAtMost k S v) {q : Nat}
    (hq0 : 0 < q) (ts : List (UcbTurn d)) (hts : ∀ t ∈ ts, TurnOK S q t) :
    ∃ sels st', ucbRun (kcov k) alpha s f q ts none = .ok (sels, st') ∧
      List.Forall₂ (fun t sel => ValidSelection t.cands.length q ∅ ∅ sel) ts sels ∧ 0 ≤ totalRegret f ts sels ∧
      totalRegret f ts sels ≤ 2 * alpha * Real.sqrt (ts.length * (S.card * ((v + s) * (1 + Real.log ts.length)))) := by
  obtain ⟨sels, st', us, c', h1, h2, h3, h4, h5, h6, -, h8, h9⟩ :=
    run_spec hok hq hal hs (by linarith) hB hv hq0 ts hts none ⟨by simp, by simp⟩ (fun _ => 0) (fun _ => Nat.zero_le _)
  refine ⟨sels, st', h1, h2, h5, h6.trans ?_⟩
  refine mul_le_mul_of_nonneg_left ((sqrt_sum_le us h4).trans ?_) (by linarith)
  refine Real.sqrt_le_sqrt ?_
  rw [h3]
  refine mul_le_mul_of_nonneg_left (h9.trans ?_) (Nat.cast_nonneg _)
  rw [mul_left_comm]
  refine mul_le_mul_of_nonneg_left ?_ (by linarith)
  rw [← nsmul_eq_mul]
  refine Finset.sum_le_card_nsmul _ _ _ fun x _ => ?_
  have h10 : (harmonic (c' x) : ℝ) ≤ harmonic ts.length := by
    have := h8 x
    rw [zero_add] at this
    have hmono : Monotone harmonic := monotone_nat_of_le_succ fun m => by
      rw [harmonic_succ]
      have : (0 : ℚ) ≤ ((m + 1 : ℕ) : ℚ)⁻¹ := by positivity
      linarith
    exact_mod_cast hmono this
  simp only [harmonic_zero, Rat.cast_zero, sub_zero]
  exact h10.trans (harmonic_le_one_add_log _)

/-- C127, no regret: for passes whose candidates come from a finite set, the average regret tends to zero. -/
theorem C127_no_regret (k : KExpr ℝ (Pt d)) (hok : AllLeaves (LeafOK (d = 1)) k) (hq : AllLeaves NoNoise k) {f : Pt d → ℝ} {alpha s v : ℝ}
    (hal : 0 ≤ alpha) (hs : 0 < s) (hB : InBall k alpha f) {S : Finset (Pt d)} (hv0 : 0 ≤ v) (hv : VarianceAtMost k S v) {q : Nat}
    (hq0 : 0 < q) (turns : Nat → UcbTurn d) (hts : ∀ j, TurnOK S q (turns j)) (sels : Nat → List (List Nat)) (st : Nat → GPState d)
    (hrun : ∀ T, ucbRun (kcov k) alpha s f q ((List.range T).map turns) none = .ok (sels T, st T)) :
    Filter.Tendsto (fun T : Nat => totalRegret f ((List.range T).map turns) (sels T) / T) Filter.atTop (nhds 0) := by
  set C : ℝ := S.card * (v + s) with hC
  have hb : ∀ T : Nat, 0 ≤ totalRegret f ((List.range T).map turns) (sels T) ∧
      totalRegret f ((List.range T).map turns) (sels T) ≤ 2 * alpha * Real.sqrt (T * (C * (1 + Real.log T))) := by
    intro T
    obtain ⟨sels', st', h1, -, h3, h4⟩ := C127_regret k hok hq hal hs hB hv0 hv hq0 ((List.range T).map turns)
      (by intro t ht; obtain ⟨j, -, rfl⟩ := List.mem_map.1 ht; exact hts j)
    rw [hrun T] at h1
    simp only [Except.ok.injEq, Prod.mk.injEq] at h1
    obtain ⟨rfl, rfl⟩ := h1
    rw [List.length_map, List.length_range] at h4
    refine ⟨h3, h4.trans (le_of_eq ?_)⟩
    rw [hC, mul_assoc (S.card : ℝ)]
  have hlim : Filter.Tendsto (fun T : Nat => 2 * alpha * Real.sqrt (C * ((1 + Real.log T) / T))) Filter.atTop (nhds 0) := by
    have h1 : Filter.Tendsto (fun x : ℝ => (1 + Real.log x) / x) Filter.atTop (nhds 0) := by
      have h2 := Real.isLittleO_log_id_atTop.tendsto_div_nhds_zero
      have h3 : Filter.Tendsto (fun x : ℝ => x⁻¹) Filter.atTop (nhds 0) := tendsto_inv_atTop_zero
      have := h3.add h2
      rw [add_zero] at this
      refine this.congr fun x => ?_
      simp only [id]
      rw [add_div, one_div]
    have h2 := h1.comp (tendsto_natCast_atTop_atTop (R := ℝ))
    have h3 := (h2.const_mul C).sqrt.const_mul (2 * alpha)
    simpa [Function.comp_def] using h3
  refine tendsto_of_tendsto_of_tendsto_of_le_of_le tendsto_const_nhds hlim (fun T => div_nonneg (hb T).1 (Nat.cast_nonneg T)) fun T => ?_
  rcases Nat.eq_zero_or_pos T with hT | hT
  · subst hT
    simp
  have hT' : (0 : ℝ) < T := by exact_mod_cast hT
  rw [div_le_iff₀ hT']
  refine (hb T).2.trans (le_of_eq ?_)
  have e : (T : ℝ) * (C * (1 + Real.log T)) = C * ((1 + Real.log T) / T) * (T : ℝ) ^ 2 := by
    field_simp
  rw [e, Real.sqrt_mul' _ (sq_nonneg _), Real.sqrt_sq hT'.le]
  ring

/-- C127, the best point is found: when every pass offers all points of `S`, after `T` passes the training data contain a point whose value is
within `2 alpha sqrt(|S| (v + s) (1 + log T) / T)` of the largest value on `S`. -/
theorem C127_finds_best (k : KExpr ℝ (Pt d)) (hok : AllLeaves (LeafOK (d = 1)) k) (hq : AllLeaves NoNoise k) {f : Pt d → ℝ} {alpha s v : ℝ}
    (hal : 0 ≤ alpha) (hs : 0 < s) (hB : InBall k alpha f) {S : Finset (Pt d)} (hv0 : 0 ≤ v) (hv : VarianceAtMost k S v) {q : Nat}
    (hq0 : 0 < q) (ts : List (UcbTurn d)) (hts : ∀ t ∈ ts, TurnOK S q t) (hall : ∀ t ∈ ts, ∀ x ∈ S, x ∈ t.cands) (hne : ts ≠ []) :
    ∃ sels rows, ucbRun (kcov k) alpha s f q ts none = .ok (sels, some rows) ∧ ∃ r ∈ rows, r.1 ∈ S ∧ r.2.1 = f r.1 ∧
      ∀ x ∈ S, f x ≤ r.2.1 + 2 * alpha * Real.sqrt (S.card * ((v + s) * (1 + Real.log ts.length)) / ts.length) := by
  obtain ⟨sels, st', hrun, hsel, -, hreg⟩ := C127_regret k hok hq hal hs hB hv0 hv hq0 ts hts
  obtain ⟨-, hlen, hrows⟩ := run_rows ts none sels st' hrun
  have hT : (0 : ℝ) < ts.length := by exact_mod_cast List.length_pos_iff.2 hne
  have hreg' : totalRegret f ts sels ≤ ts.length * (2 * alpha * Real.sqrt (S.card * ((v + s) * (1 + Real.log ts.length)) / ts.length)) := by
    refine hreg.trans (le_of_eq ?_)
    have e : (ts.length : ℝ) * (S.card * ((v + s) * (1 + Real.log ts.length))) =
        S.card * ((v + s) * (1 + Real.log ts.length)) / ts.length * (ts.length : ℝ) ^ 2 := by
      field_simp
    rw [e, Real.sqrt_mul' _ (sq_nonneg _), Real.sqrt_sq hT.le]
    ring
  obtain ⟨⟨t, sel⟩, hp, hr⟩ := exists_small_regret hlen hne hreg'
  have hval : ValidSelection t.cands.length q ∅ ∅ sel := by
    have := List.forall₂_iff_zip.1 hsel
    exact this.2 hp
  have htm : t ∈ ts := (List.of_mem_zip hp).1
  obtain ⟨x0, hx0, hx0b⟩ := bestOf_attained (f := f) (chosen_ne_nil hq0 hval)
  have hmem := hrows _ hp x0 hx0
  cases st' with
  | none => simp at hmem
  | some rows =>
    refine ⟨sels, rows, hrun, (x0, f x0, s), hmem, ?_, rfl, fun x hx => ?_⟩
    · refine (hts t htm).mem x0 ?_
      unfold chosen at hx0
      rw [List.mem_filterMap] at hx0
      obtain ⟨i, -, hi⟩ := hx0
      exact List.mem_of_getElem? hi
    · have h1 := le_bestOf (f := f) (hall t htm x hx)
      unfold turnRegret at hr
      simp only at hr ⊢
      rw [hx0b] at hr
      linarith

/-- C127, too few candidates: a pass with some candidates but fewer than `q` raises `Exception`, whatever passes came before. -/
theorem C127_too_few (k : KExpr ℝ (Pt d)) (hok : AllLeaves (LeafOK (d = 1)) k) (hq : AllLeaves NoNoise k) {f : Pt d → ℝ} {alpha s : ℝ}
    (hs : 0 < s) {q : Nat} (ts : List (UcbTurn d)) (t : UcbTurn d) (rest : List (UcbTurn d)) (hord : Enumerates t.ord)
    (hordL : ∀ i, Enumerates (t.ordL i)) (hne : t.cands ≠ []) (hlt : t.cands.length < q) {S : Finset (Pt d)} (hts : ∀ t ∈ ts, TurnOK S q t)
    {sels : List (List Nat)} {st : GPState d} (hrun : ucbRun (kcov k) alpha s f q ts none = .ok (sels, st)) :
    ucbRun (kcov k) alpha s f q (ts ++ t :: rest) none = .error .exception := by
  have h := ucbRun_append (kcov k) alpha s f q ts (t :: rest) none hrun
  rw [h]
  have hR := run_rowsOf ts none sels st hrun (by simp)
  have := turn_too_few (alpha := alpha) hok hq hs hord hordL hne hlt (st := st)
    ⟨hR, run_not_empty (by omega) ts hts none sels st hrun (by simp)⟩
  simp only [ucbRun, this]

/-! Instances: the default kernel in one dimension, a bump as function, two candidates. -/

/-- The function `exp(-x²/2)`, the kernel function at zero. -/
noncomputable def bumpFn : Pt 1 → ℝ := fun x => Real.exp (-(1 / 2) * (x 0) ^ 2)

/-- Two candidates, listed in increasing order of their indices. -/
def bumpTurn : UcbTurn 1 := ⟨[![0], ![1]], fun _ => sortedList, sortedList⟩

/-- The hypotheses of `C127_combination`, and with it those of the other theorems. -/
theorem bump_in_ball : InBall (.leaf (.rbf 1 1 0) : KExpr ℝ (Pt 1)) 1 bumpFn := by
  have hok : AllLeaves (LeafOK ((1 : Nat) = 1)) (.leaf (.rbf 1 1 0) : KExpr ℝ (Pt 1)) := by simp [AllLeaves, LeafOK]
  have hq : AllLeaves NoNoise (.leaf (.rbf 1 1 0) : KExpr ℝ (Pt 1)) := by simp [AllLeaves, NoNoise, noiseOf]
  obtain ⟨G, hG⟩ := cov_returns (.leaf (.rbf 1 1 0) : KExpr ℝ (Pt 1)) (fun _ : Fin 1 => ![0]) (fun _ : Fin 1 => ![0]) (by norm_num)
  refine C127_combination _ hok hq (fun _ : Fin 1 => ![0]) (fun _ => 1) (by norm_num) hG bumpFn ?_ ?_
  · intro x C hC
    simp only [KExpr.cov, KLeaf.cov] at hC
    rw [rbfCov_ok (by omega)] at hC
    cases hC
    simp [bumpFn, rbfEval, noiseTerm, sqDist]
    ring
  · simp only [KExpr.cov, KLeaf.cov] at hG
    rw [rbfCov_ok (by omega)] at hG
    cases hG
    simp [rbfEval, noiseTerm, sqDist]

theorem bump_turn_ok : TurnOK {![0], ![1]} 1 bumpTurn :=
  ⟨by simp [bumpTurn], by simp [bumpTurn], fun _ => sort_enumerates, sort_enumerates⟩

/-- The hypotheses of `C127_regret`, `C127_no_regret` and `C127_finds_best` hold for any number of such passes with the default noise. -/
example (T : Nat) (hT : 0 < T) : ∃ sels rows,
    ucbRun (kcov (.leaf (.rbf 1 1 0) : KExpr ℝ (Pt 1))) 1 0.0005 bumpFn 1 (List.replicate T bumpTurn) none = .ok (sels, some rows) ∧
      ∃ r ∈ rows, ∀ x ∈ ({![0], ![1]} : Finset (Pt 1)),
        bumpFn x ≤ r.2.1 + 2 * 1 * Real.sqrt (({![0], ![1]} : Finset (Pt 1)).card * ((1 + 0.0005) * (1 + Real.log T)) / T) := by
  have hok : AllLeaves (LeafOK ((1 : Nat) = 1)) (.leaf (.rbf 1 1 0) : KExpr ℝ (Pt 1)) := by simp [AllLeaves, LeafOK]
  have hq : AllLeaves NoNoise (.leaf (.rbf 1 1 0) : KExpr ℝ (Pt 1)) := by simp [AllLeaves, NoNoise, noiseOf]
  have hv : VarianceAtMost (.leaf (.rbf 1 1 0) : KExpr ℝ (Pt 1)) {![0], ![1]} 1 := by
    intro x _ c hc
    simp only [KExpr.cov, KLeaf.cov] at hc
    rw [rbfCov_ok (by omega)] at hc
    cases hc
    simp [rbfEval, noiseTerm, sqDist]
  have hm : ∀ t ∈ List.replicate T bumpTurn, t = bumpTurn := fun t ht => List.eq_of_mem_replicate ht
  obtain ⟨sels, rows, h1, r, h2, -, -, h5⟩ := C127_finds_best (.leaf (.rbf 1 1 0) : KExpr ℝ (Pt 1)) hok hq (f := bumpFn) (alpha := 1)
    (s := 0.0005) (v := 1) (by norm_num) (by norm_num) bump_in_ball (by norm_num) hv (q := 1) (by norm_num) (List.replicate T bumpTurn)
    (fun t ht => by rw [hm t ht]; exact bump_turn_ok) (fun t ht x hx => by rw [hm t ht]; simpa [bumpTurn] using hx)
    (by intro h; have := congrArg List.length h; simp at this; omega)
  rw [List.length_replicate] at h5
  exact ⟨sels, rows, h1, r, h2, h5⟩

/-- The hypotheses of `C127_too_few`: three alternatives asked of two candidates. -/
example : ucbRun (kcov (.leaf (.rbf 1 1 0) : KExpr ℝ (Pt 1))) 1 0.0005 bumpFn 3 ([] ++ bumpTurn :: [bumpTurn]) none = .error .exception :=
  C127_too_few (.leaf (.rbf 1 1 0) : KExpr ℝ (Pt 1)) (by simp [AllLeaves, LeafOK]) (by simp [AllLeaves, NoNoise, noiseOf]) (by norm_num) []
    bumpTurn [bumpTurn] sort_enumerates (fun _ => sort_enumerates) (by simp [bumpTurn]) (by simp [bumpTurn]) (S := ∅) (by simp) rfl

/-- The hypotheses of `C127_confidence`: one measurement, off by a tenth. -/
example : ∃ p, gpRegress (kcov (.leaf (.rbf 1 1 0) : KExpr ℝ (Pt 1))) (fun _ => 0) (gpAdd (fun _ => 0) none [(![0], 1.1, 0.0005)])
    (fun _ : Fin 1 => ![1]) = .ok p ∧ ∀ i, 0 ≤ p.sigma i ∧ |bumpFn ![1] - p.mu i| ≤
      Real.sqrt (1 ^ 2 + ([((![0] : Pt 1), (1.1 : ℝ), (0.0005 : ℝ))].map fun r => (r.2.1 - bumpFn r.1) ^ 2 / r.2.2).sum) * Real.sqrt (p.sigma i) :=
  C127_confidence (.leaf (.rbf 1 1 0) : KExpr ℝ (Pt 1)) (by simp [AllLeaves, LeafOK]) (by simp [AllLeaves, NoNoise, noiseOf]) (fun _ => 0)
    bumpFn (by simpa using bump_in_ball) [(![0], 1.1, 0.0005)] (by simp) (by simp; norm_num) (fun _ => ![1]) (by norm_num)

end Lop.Props
