import Verif.Proofs.UcbGood
import Verif.Proofs.UcbInfo
import Verif.Props.GPChain

/-! # C140: the regret of `UCBLearner` is bounded by what the measurements can tell -/

namespace Lop.Props

open Spec Matrix MeasureTheory ProbabilityTheory

variable {d n : Nat} {Ω : Type*} [mΩ : MeasurableSpace Ω] {μ : Measure Ω} [IsProbabilityMeasure μ]

/-- C140, any kernel: if no `T` measurements tell more than `G` (the logarithm of the determinant of `1 + K / s`), the regret of `T` passes is at most
`2 alpha sqrt(T v / log(1 + v / s) G)`, except with probability `2 T |S| (1 - Φ(alpha))`. -/
theorem C140_regret (k : KExpr ℝ (Pt d)) (hok : AllLeaves (LeafOK (d = 1)) k) (hq : AllLeaves NoNoise k) {alpha s v : ℝ} (hal : 0 ≤ alpha)
    (hs : 0 < s) {S : Finset (Pt d)} (hv0 : 0 < v) (hv : VarianceAtMost k S v) {turns : Nat → UcbTurn d} (hts : ∀ t, TurnOK S 1 (turns t))
    {F : Pt d → Ω → ℝ} (hFm : ∀ x, Measurable (F x)) (hF : IsRandomFunction μ k (fun _ => 0) F) {err : Nat → Ω → ℝ} (hem : ∀ t, Measurable (err t))
    (he : IsMeasurementError μ (fun _ => 0) F (fun _ => s) err)
    (hG : ∀ (T : Nat) (z : Nat → Pt d) (x : Pt d), HasGaussianLaw (fun ω => (fun _ : Fin 1 => F x ω, fun t : Fin T => F (z t) ω + err t ω)) μ) :
    ∃ (st : Ω → Nat → GPState d) (x : Ω → Nat → Pt d),
      (∀ ω t, noisyUcb (kcov k) alpha (fun y => F y ω) (fun _ => s) (fun t => err t ω) turns t = .ok (st ω t)) ∧
      (∀ ω t, ∃ i, ucbTurn (kcov k) alpha s (fun y => F y ω + err t ω) 1 (turns t) (st ω t) = .ok ([i], st ω (t + 1)) ∧
        (turns t).cands[i]? = some (x ω t)) ∧
      ∀ (T : Nat) (G : ℝ), 0 < T →
        (∀ (z : Fin T → Pt d) c, (∀ t, z t ∈ S) → k.cov z z = .ok c → Real.log (1 + s⁻¹ • c).det ≤ G) →
        ENNReal.ofReal (1 - T * (S.card * (2 * (1 - Phi alpha)))) ≤
          μ {ω | ∑ t ∈ Finset.range T, (bestOf (fun y => F y ω) (turns t).cands - F (x ω t) ω) ≤
            2 * alpha * Real.sqrt (T * (v / Real.log (1 + v / s) * G))} := by
  obtain ⟨st, x, h1, h2, hxS, hdata, h3⟩ := good_run k hok hq (alpha := alpha) hs hts hFm hF hem he hG
  refine ⟨st, x, h1, h2, fun T G hT hGb => (h3 T).trans (measure_mono fun ω hω => ?_)⟩
  obtain ⟨c, hc⟩ := cov_returns k (fun t : Fin T => x ω t) (fun t : Fin T => x ω t) hT
  have hp := fun t => (point_prediction hok hq (x ω) hs t).1 (fun _ : Fin 1 => x ω t) one_pos fun j => F (x ω j) ω + err j ω
  choose pred hp1 hp2 using hp
  have hvar : ∀ t, c t t ≤ v := by
    intro t
    obtain ⟨g, hg, -, -, -⟩ := kernel_fn k hok hq
    obtain ⟨c1, hc1⟩ := cov_returns k (fun _ : Fin 1 => x ω t) (fun _ : Fin 1 => x ω t) one_pos
    rw [hg _ _ c hc, ← hg _ _ c1 hc1 0 0]
    exact hv _ (hxS ω t) c1 hc1
  have hw := C139_widths k hok hq (x ω) hs hv0 (fun j => F (x ω j) ω + err j ω) hp1 hc hvar
  have hlv : 0 < Real.log (1 + v / s) := Real.log_pos (by have := div_pos hv0 hs; linarith)
  have e : ∑ t ∈ Finset.range T, Real.sqrt (atVar (kcov k) (st ω t) (x ω t)) = ∑ t ∈ Finset.range T, Real.sqrt ((pred t).sigma 0) :=
    Finset.sum_congr rfl fun t _ => by rw [(hp2 t 0).2, hdata]
  suffices h : ∑ t ∈ Finset.range T, Real.sqrt (atVar (kcov k) (st ω t) (x ω t)) ≤ Real.sqrt (T * (v / Real.log (1 + v / s) * G)) from
    le_trans hω (mul_le_mul_of_nonneg_left h (by positivity))
  rw [e]
  refine hw.trans (Real.sqrt_le_sqrt ?_)
  have hT0 : (0 : ℝ) ≤ T := Nat.cast_nonneg T
  have := hGb (fun t => x ω t) c (fun t => hxS ω t) hc
  gcongr

/-- C140, the linear kernel: `T` measurements of a linear function of `d` features and an offset tell at most `(d + 1) log(1 + T v / ((d + 1) s))`. -/
theorem C140_linear_information (a b o : ℝ) {s v : ℝ} (hs : 0 < s) {S : Finset (Pt d)}
    (hv : VarianceAtMost (.leaf (.linear a b o)) S v) {T : Nat} (z : Fin T → Pt d) (hz : ∀ t, z t ∈ S) {c : Matrix (Fin T) (Fin T) ℝ}
    (hc : (KExpr.leaf (.linear a b o) : KExpr ℝ (Pt d)).cov z z = .ok c) :
    Real.log (1 + s⁻¹ • c).det ≤ (d + 1 : Nat) * Real.log (1 + T * v / (s * (d + 1 : Nat))) := by
  set P : Matrix (Fin T) (Option (Fin d)) ℝ := Matrix.of fun t o' => o'.elim b fun j => a * (z t j - o) with hP
  have hcP : c = P * Pᵀ := by
    simp only [KExpr.cov, KLeaf.cov, Except.ok.injEq] at hc
    rw [← hc]
    ext i j
    rw [Matrix.mul_apply, Fintype.sum_option]
    simp only [hP, of_apply, transpose_apply, Option.elim, Finset.mul_sum]
    congr 1
    · ring
    · exact Finset.sum_congr rfl fun k _ => by ring
  have h := log_det_features P hs
  rw [← hcP, Fintype.card_option, Fintype.card_fin] at h
  refine h.trans (mul_le_mul_of_nonneg_left (Real.log_le_log ?_ ?_) (Nat.cast_nonneg _))
  · have : 0 ≤ c.trace := by
      rw [hcP, trace]
      exact Finset.sum_nonneg fun t _ => by
        rw [diag_apply, Matrix.mul_apply]
        exact Finset.sum_nonneg fun j _ => by rw [transpose_apply]; exact mul_self_nonneg _
    positivity
  · have htr : c.trace ≤ T * v := by
      have : ∀ t ∈ (Finset.univ : Finset (Fin T)), c t t ≤ v := fun t _ => by
        refine le_trans (le_of_eq ?_) (hv (z t) (hz t) _ rfl)
        simp only [KExpr.cov, KLeaf.cov, Except.ok.injEq] at hc
        rw [← hc]
        rfl
      have h2 := Finset.sum_le_sum this
      simpa [trace] using h2
    gcongr

/-- C140, the linear kernel: the regret depends on the number of candidates only through the probability. -/
theorem C140_linear {a b o : ℝ} {alpha s v : ℝ} (hal : 0 ≤ alpha)
    (hs : 0 < s) {S : Finset (Pt d)} (hv0 : 0 < v) (hv : VarianceAtMost (.leaf (.linear a b o)) S v) {turns : Nat → UcbTurn d}
    (hts : ∀ t, TurnOK S 1 (turns t)) {F : Pt d → Ω → ℝ} (hFm : ∀ x, Measurable (F x))
    (hF : IsRandomFunction μ (.leaf (.linear a b o)) (fun _ => 0) F) {err : Nat → Ω → ℝ} (hem : ∀ t, Measurable (err t))
    (he : IsMeasurementError μ (fun _ => 0) F (fun _ => s) err)
    (hG : ∀ (T : Nat) (z : Nat → Pt d) (x : Pt d), HasGaussianLaw (fun ω => (fun _ : Fin 1 => F x ω, fun t : Fin T => F (z t) ω + err t ω)) μ) :
    ∃ (st : Ω → Nat → GPState d) (x : Ω → Nat → Pt d),
      (∀ ω t, noisyUcb (kcov (.leaf (.linear a b o))) alpha (fun y => F y ω) (fun _ => s) (fun t => err t ω) turns t = .ok (st ω t)) ∧
      (∀ ω t, ∃ i, ucbTurn (kcov (.leaf (.linear a b o))) alpha s (fun y => F y ω + err t ω) 1 (turns t) (st ω t) = .ok ([i], st ω (t + 1)) ∧
        (turns t).cands[i]? = some (x ω t)) ∧
      ∀ T : Nat, ENNReal.ofReal (1 - T * (S.card * (2 * (1 - Phi alpha)))) ≤
        μ {ω | ∑ t ∈ Finset.range T, (bestOf (fun y => F y ω) (turns t).cands - F (x ω t) ω) ≤
          2 * alpha * Real.sqrt (T * (v / Real.log (1 + v / s) * ((d + 1 : Nat) * Real.log (1 + T * v / (s * (d + 1 : Nat))))))} := by
  obtain ⟨st, x, h1, h2, h3⟩ := C140_regret (.leaf (.linear a b o)) (by simp [AllLeaves, LeafOK]) (by simp [AllLeaves, NoNoise, noiseOf]) hal hs hv0 hv hts
    hFm hF hem he hG
  refine ⟨st, x, h1, h2, fun T => ?_⟩
  rcases Nat.eq_zero_or_pos T with h0 | hT
  · subst h0
    simp
  · exact h3 T _ hT fun z c hz hc => C140_linear_information a b o hs hv z hz hc

/-- A random line, maximised over 1 and 2. -/
example : ∃ (st : (Nat → ℝ) → Nat → GPState 1) (x : (Nat → ℝ) → Nat → Pt 1),
    (∀ ω t, noisyUcb (kcov (.leaf (.linear 1 0 0) : KExpr ℝ (Pt 1))) 5 (fun y => ω 0 * y 0) (fun _ => 1) (fun t => ω (t + 1))
      (fun _ => ⟨[![1], ![2]], fun _ => sortedList, sortedList⟩) t = .ok (st ω t)) ∧
    ENNReal.ofReal (1 - (100 : Nat) * (({![1], ![2]} : Finset (Pt 1)).card * (2 * (1 - Phi 5)))) ≤
      gaussDraws {ω | ∑ t ∈ Finset.range 100, (bestOf (fun y : Pt 1 => ω 0 * y 0) [![1], ![2]] - ω 0 * x ω t 0) ≤
        2 * 5 * Real.sqrt ((100 : Nat) * (4 / Real.log (1 + 4 / 1) * ((1 + 1 : Nat) * Real.log (1 + (100 : Nat) * 4 / (1 * (1 + 1 : Nat))))))} := by
  obtain ⟨st, x, h1, -, h3⟩ := C140_linear (a := 1) (b := 0) (o := 0) (μ := gaussDraws) (alpha := 5) (s := 1) (v := 4) (S := {![1], ![2]}) (by norm_num)
    one_pos (by norm_num)
    (by
      intro y hy c hc
      simp only [KExpr.cov, KLeaf.cov] at hc
      cases hc
      simp only [Finset.mem_insert, Finset.mem_singleton] at hy
      rcases hy with rfl | rfl <;> norm_num)
    (turns := fun _ => ⟨[![1], ![2]], fun _ => sortedList, sortedList⟩)
    (fun _ => ⟨by simp, by simp, fun _ => sort_enumerates, sort_enumerates⟩) (fun x => by fun_prop) line_random (fun t => by fun_prop) line_error
    (fun T z y => line_gauss z T fun _ => y)
  exact ⟨st, x, h1, h3 100⟩

end Lop.Props
