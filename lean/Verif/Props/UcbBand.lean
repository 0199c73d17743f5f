import Verif.Proofs.UcbGood

/-! # C138: with high probability all confidence bands hold, and `UCBLearner` has small regret -/

namespace Lop.Props

open Spec Matrix MeasureTheory ProbabilityTheory

variable {d n : Nat} {Ω : Type*} [mΩ : MeasurableSpace Ω] {μ : Measure Ω} [IsProbabilityMeasure μ]

/-- C138, the bands: however the points are chosen from the data, the function lies within `a` predicted standard deviations of the predicted mean
at all of `n` points after all of `0, …, T - 1` measurements, except with probability `2 T n (1 - Φ(a))`. -/
theorem C138_bands (k : KExpr ℝ (Pt d)) (hok : AllLeaves (LeafOK (d = 1)) k) (hq : AllLeaves NoNoise k) {s : ℝ}
    (hs : 0 < s) {S : Finset (Pt d)} {pick : Nat → GPState d → Pt d} (hrule : IsRule (fun _ => 0) (fun _ => s) S pick)
    {F : Pt d → Ω → ℝ} (hFm : ∀ x, Measurable (F x)) (hF : IsRandomFunction μ k (fun _ => 0) F) {err : Nat → Ω → ℝ} (hem : ∀ t, Measurable (err t))
    (he : IsMeasurementError μ (fun _ => 0) F (fun _ => s) err)
    (hG : ∀ (T : Nat) (z : Nat → Pt d) (x : Pt d), HasGaussianLaw (fun ω => (fun _ : Fin 1 => F x ω, fun t : Fin T => F (z t) ω + err t ω)) μ)
    (X : Fin n → Pt d) (hn : 0 < n) :
    ∃ pred : Ω → Nat → GPPred n,
      (∀ ω t, gpRegress (kcov k) (fun _ => 0) (activeRun (fun _ => 0) pick (fun y => F y ω) (fun _ => s) (fun t => err t ω) t) X = .ok (pred ω t)) ∧
      ∀ (a : ℝ) (T : Nat), ENNReal.ofReal (1 - T * (n * (2 * (1 - Phi a)))) ≤
        μ {ω | ∀ t < T, ∀ i, |F (X i) ω - (pred ω t).mu i| ≤ a * Real.sqrt ((pred ω t).sigma i)} := by
  set st : Ω → Nat → GPState d := fun ω => activeRun (fun _ => 0) pick (fun y => F y ω) (fun _ => s) fun t => err t ω with hst
  have hp : ∀ ω t, ∃ p : GPPred n, gpRegress (kcov k) (fun _ => 0) (st ω t) X = .ok p ∧
      ∀ i, p.mu i = atMean (kcov k) (st ω t) (X i) ∧ p.sigma i = atVar (kcov k) (st ω t) (X i) := by
    intro ω t
    have hdata : st ω t = dataOf (fun _ => 0) (fun j => pick j (st ω j)) (fun _ => s) (fun j => F (pick j (st ω j)) ω + err j ω) t :=
      follows_data (fun _ => 0) pick (fun y => F y ω) (fun _ => s) (fun t => err t ω) (fun j => pick j (st ω j)) fun j _ => rfl
    have h := (point_prediction hok hq (fun j => pick j (st ω j)) hs t).1 X hn fun j => F (pick j (st ω j)) ω + err j ω
    rw [← hdata] at h
    exact h
  choose pred h1 h2 using hp
  refine ⟨pred, h1, fun a T => ?_⟩
  have h := bands_prob hok hq hs hrule hFm hF hem he hG hst T X a (A := _) subset_rfl
  rw [Fintype.card_fin] at h
  refine h.trans (measure_mono fun ω hω t ht i => ?_)
  rw [(h2 ω t i).1, (h2 ω t i).2]
  exact hω t ht i

/-- C138, the regret: of maximising with `UCBLearner(alpha)`, except with probability `2 T |S| (1 - Φ(alpha))`. -/
theorem C138_regret (k : KExpr ℝ (Pt d)) (hok : AllLeaves (LeafOK (d = 1)) k) (hq : AllLeaves NoNoise k) {alpha s v : ℝ} (hal : 0 ≤ alpha)
    (hs : 0 < s) {S : Finset (Pt d)} (hv0 : 0 ≤ v) (hv : VarianceAtMost k S v) {turns : Nat → UcbTurn d} (hts : ∀ t, TurnOK S 1 (turns t))
    {F : Pt d → Ω → ℝ} (hFm : ∀ x, Measurable (F x)) (hF : IsRandomFunction μ k (fun _ => 0) F) {err : Nat → Ω → ℝ} (hem : ∀ t, Measurable (err t))
    (he : IsMeasurementError μ (fun _ => 0) F (fun _ => s) err)
    (hG : ∀ (T : Nat) (z : Nat → Pt d) (x : Pt d), HasGaussianLaw (fun ω => (fun _ : Fin 1 => F x ω, fun t : Fin T => F (z t) ω + err t ω)) μ) :
    ∃ (st : Ω → Nat → GPState d) (x : Ω → Nat → Pt d),
      (∀ ω t, noisyUcb (kcov k) alpha (fun y => F y ω) (fun _ => s) (fun t => err t ω) turns t = .ok (st ω t)) ∧
      (∀ ω t, ∃ i, ucbTurn (kcov k) alpha s (fun y => F y ω + err t ω) 1 (turns t) (st ω t) = .ok ([i], st ω (t + 1)) ∧
        (turns t).cands[i]? = some (x ω t)) ∧
      ∀ T : Nat, ENNReal.ofReal (1 - T * (S.card * (2 * (1 - Phi alpha)))) ≤
        μ {ω | ∑ t ∈ Finset.range T, (bestOf (fun y => F y ω) (turns t).cands - F (x ω t) ω) ≤
          2 * alpha * Real.sqrt (T * (S.card * ((v + s) * (1 + Real.log T))))} := by
  obtain ⟨st, x, h1, h2, hxS, hdata, h3⟩ := good_run k hok hq (alpha := alpha) hs hts hFm hF hem he hG
  refine ⟨st, x, h1, h2, fun T => (h3 T).trans (measure_mono fun ω hω => ?_)⟩
  have hw : ∑ t ∈ Finset.range T, Real.sqrt (atVar (kcov k) (st ω t) (x ω t)) ≤ Real.sqrt (T * (S.card * ((v + s) * (1 + Real.log T)))) := by
    have hb := fun t => (point_prediction hok hq (x ω) hs t).2.2.2 (fun j => F (x ω j) ω + err j ω) (x ω t) v (hv _ (hxS ω t))
    refine width_sum (z := x ω) (S := S) (s := s) (w := fun j => F (x ω j) ω + err j ω) (hxS ω) (by linarith)
      (u := fun t => atVar (kcov k) (st ω t) (x ω t)) (fun t => ?_) (fun t => ?_) T
    · rw [hdata ω t]; exact (hb t).1
    · rw [hdata ω t]; exact (hb t).2.2
  exact le_trans hω (mul_le_mul_of_nonneg_left hw (by positivity))

/-- C138, the choice of `alpha`: with `alpha = sqrt(2 log(2 T |S| / delta))` the regret of `T` passes is small with probability `1 - delta`. -/
theorem C138_alpha (k : KExpr ℝ (Pt d)) (hok : AllLeaves (LeafOK (d = 1)) k) (hq : AllLeaves NoNoise k) {s v : ℝ}
    (hs : 0 < s) {S : Finset (Pt d)} (hv0 : 0 ≤ v) (hv : VarianceAtMost k S v) {turns : Nat → UcbTurn d} (hts : ∀ t, TurnOK S 1 (turns t))
    {F : Pt d → Ω → ℝ} (hFm : ∀ x, Measurable (F x)) (hF : IsRandomFunction μ k (fun _ => 0) F) {err : Nat → Ω → ℝ} (hem : ∀ t, Measurable (err t))
    (he : IsMeasurementError μ (fun _ => 0) F (fun _ => s) err)
    (hG : ∀ (T : Nat) (z : Nat → Pt d) (x : Pt d), HasGaussianLaw (fun ω => (fun _ : Fin 1 => F x ω, fun t : Fin T => F (z t) ω + err t ω)) μ)
    {T : Nat} (hT : 0 < T) {delta : ℝ} (hd : 0 < delta) (hd1 : delta ≤ 1) {alpha : ℝ} (ha : alpha = Real.sqrt (2 * Real.log (2 * T * S.card / delta))) :
    ∃ (st : Ω → Nat → GPState d) (x : Ω → Nat → Pt d),
      (∀ ω t, noisyUcb (kcov k) alpha (fun y => F y ω) (fun _ => s) (fun t => err t ω) turns t = .ok (st ω t)) ∧
      (∀ ω t, ∃ i, ucbTurn (kcov k) alpha s (fun y => F y ω + err t ω) 1 (turns t) (st ω t) = .ok ([i], st ω (t + 1)) ∧
        (turns t).cands[i]? = some (x ω t)) ∧
      ENNReal.ofReal (1 - delta) ≤ μ {ω | ∑ t ∈ Finset.range T, (bestOf (fun y => F y ω) (turns t).cands - F (x ω t) ω) ≤
        2 * Real.sqrt (2 * Real.log (2 * T * S.card / delta) * (T * (S.card * ((v + s) * (1 + Real.log T)))))} := by
  have hal : 0 ≤ alpha := by rw [ha]; exact Real.sqrt_nonneg _
  obtain ⟨st, x, h1, h2, h3⟩ := C138_regret k hok hq hal hs hv0 hv hts hFm hF hem he hG
  refine ⟨st, x, h1, h2, ?_⟩
  have hTr : (1 : ℝ) ≤ T := by exact_mod_cast hT
  have hcard : (1 : ℝ) ≤ S.card := by
    have hl : 0 < (turns 0).cands.length := (hts 0).enough
    have : 0 < S.card := Finset.card_pos.2 ⟨_, (hts 0).mem _ (List.get_mem (turns 0).cands ⟨0, hl⟩)⟩
    exact_mod_cast this
  have hbig : 1 ≤ 2 * T * S.card / delta := by
    rw [le_div_iff₀ hd]
    nlinarith
  have hlog : 0 ≤ Real.log (2 * T * S.card / delta) := Real.log_nonneg hbig
  refine le_trans (ENNReal.ofReal_le_ofReal ?_) ((h3 T).trans (measure_mono fun ω hω => ?_))
  · have ht := Phi_tail hal
    have hexp : Real.exp (-(alpha ^ 2 / 2)) = delta / (2 * T * S.card) := by
      rw [ha, Real.sq_sqrt (by positivity), mul_div_cancel_left₀ _ (by norm_num), Real.exp_neg, Real.exp_log (by linarith), inv_div]
    rw [hexp] at ht
    have h4 : T * (S.card * (2 * (1 - Phi alpha))) ≤ delta := by
      calc (T : ℝ) * (S.card * (2 * (1 - Phi alpha))) ≤ T * (S.card * (2 * (delta / (2 * T * S.card)))) := by gcongr
        _ = delta := by field_simp
    linarith
  · refine le_trans (id hω : ∑ t ∈ Finset.range T, (bestOf (fun y => F y ω) (turns t).cands - F (x ω t) ω) ≤ 2 * alpha * Real.sqrt (T * (S.card * ((v + s) * (1 + Real.log T))))) (le_of_eq ?_)
    rw [mul_assoc, ha, Real.sqrt_mul (mul_nonneg zero_le_two hlog) (T * (S.card * ((v + s) * (1 + Real.log T))))]

/-- A random line, measured at 1 or 2 as `UCBLearner` chooses: its bands at -3 and 5. -/
example : ∃ pred : (Nat → ℝ) → Nat → GPPred 2,
    (∀ ω t, ∃ st, noisyUcb (kcov (.leaf (.linear 1 0 0) : KExpr ℝ (Pt 1))) 2 (fun x => ω 0 * x 0) (fun _ => 1) (fun t => ω (t + 1))
        (fun _ => ⟨[![1], ![2]], fun _ => sortedList, sortedList⟩) t = .ok st ∧
      gpRegress (kcov (.leaf (.linear 1 0 0) : KExpr ℝ (Pt 1))) (fun _ => 0) st ![![-3], ![5]] = .ok (pred ω t)) ∧
    ENNReal.ofReal (1 - (10 : Nat) * ((2 : Nat) * (2 * (1 - Phi 4)))) ≤
      gaussDraws {ω | ∀ t < 10, ∀ i, |ω 0 * (![![-3], ![5]] : Fin 2 → Pt 1) i 0 - (pred ω t).mu i| ≤ 4 * Real.sqrt ((pred ω t).sigma i)} := by
  have hok : AllLeaves (LeafOK ((1 : Nat) = 1)) (.leaf (.linear 1 0 0) : KExpr ℝ (Pt 1)) := by simp [AllLeaves, LeafOK]
  have hq : AllLeaves NoNoise (.leaf (.linear 1 0 0) : KExpr ℝ (Pt 1)) := by simp [AllLeaves, NoNoise, noiseOf]
  obtain ⟨hr, hl⟩ := C135_ucb (.leaf (.linear 1 0 0) : KExpr ℝ (Pt 1)) hok hq 2 (s := fun _ => 1) (fun _ => one_pos) (S := {![1], ![2]})
    (turns := fun _ => ⟨[![1], ![2]], fun _ => sortedList, sortedList⟩) (fun _ => ⟨by simp, by simp, fun _ => sort_enumerates, sort_enumerates⟩)
  obtain ⟨pred, h1, h2⟩ := C138_bands _ hok hq one_pos hr (μ := gaussDraws) (F := fun x ω => ω 0 * x 0) (err := fun t ω => ω (t + 1)) (fun x => by fun_prop)
    line_random (fun t => by fun_prop) line_error (fun T z y => line_gauss z T fun _ => y) ![![-3], ![5]] (by norm_num)
  exact ⟨pred, fun ω t => ⟨_, hl (fun x => ω 0 * x 0) (fun t => ω (t + 1)) t, h1 ω t⟩, h2 4 10⟩

/-- The regret of 100 passes, except with probability 1/100. -/
example : ∃ (st : (Nat → ℝ) → Nat → GPState 1) (x : (Nat → ℝ) → Nat → Pt 1),
    (∀ ω t, noisyUcb (kcov (.leaf (.linear 1 0 0) : KExpr ℝ (Pt 1)))
      (Real.sqrt (2 * Real.log (2 * (100 : Nat) * ({![1], ![2]} : Finset (Pt 1)).card / (1 / 100)))) (fun y => ω 0 * y 0) (fun _ => 1) (fun t => ω (t + 1))
      (fun _ => ⟨[![1], ![2]], fun _ => sortedList, sortedList⟩) t = .ok (st ω t)) ∧
    ENNReal.ofReal (1 - 1 / 100) ≤ gaussDraws {ω | ∑ t ∈ Finset.range 100, (bestOf (fun y : Pt 1 => ω 0 * y 0) [![1], ![2]] - ω 0 * x ω t 0) ≤
      2 * Real.sqrt (2 * Real.log (2 * (100 : Nat) * ({![1], ![2]} : Finset (Pt 1)).card / (1 / 100)) *
        ((100 : Nat) * (({![1], ![2]} : Finset (Pt 1)).card * ((4 + 1) * (1 + Real.log (100 : Nat))))))} := by
  obtain ⟨st, x, h1, -, h3⟩ := C138_alpha (.leaf (.linear 1 0 0) : KExpr ℝ (Pt 1)) (by simp [AllLeaves, LeafOK])
    (by simp [AllLeaves, NoNoise, noiseOf]) (μ := gaussDraws) (s := 1) (v := 4) (S := {![1], ![2]}) one_pos (by norm_num)
    (by
      intro y hy c hc
      simp only [KExpr.cov, KLeaf.cov] at hc
      cases hc
      simp only [Finset.mem_insert, Finset.mem_singleton] at hy
      rcases hy with rfl | rfl <;> norm_num)
    (turns := fun _ => ⟨[![1], ![2]], fun _ => sortedList, sortedList⟩)
    (fun _ => ⟨by simp, by simp, fun _ => sort_enumerates, sort_enumerates⟩) (fun x => by fun_prop) line_random (fun t => by fun_prop) line_error
    (fun T z y => line_gauss z T fun _ => y) (T := 100) (by norm_num) (delta := 1 / 100) (by norm_num) (by norm_num) rfl
  exact ⟨st, x, h1, h3⟩

end Lop.Props
