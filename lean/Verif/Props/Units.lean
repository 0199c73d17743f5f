import Verif.Proofs.UnitsKernel

/-! # C118: units do not matter -/

namespace Lop.Props

open Lop.Spec Matrix

variable {n t d m : Nat}

/-- C118: `cov` of the kernel for utilities multiplied by `c` is `c ^ 2` times the old one, refusals included. -/
theorem C118_kernel {c : ℝ} (hc : c ≠ 0) (k : KExpr ℝ (Pt d)) (X : Fin n → Pt d) (Y : Fin m → Pt d) :
    (kernelUnits c k).cov X Y = (k.cov X Y).map (c ^ 2 • ·) := cov_units hc k X Y

/-- C118: with everything that is a utility multiplied by `c` – noise of the comparisons, thresholds and noise of the
ordinals, noise of the ratings, covariances, start and tolerance – the whole fit of `PreferenceGP`, to labels of all types,
gives `c` times the utilities after the same number of loops, and raises the same exceptions. -/
theorem C118_fit {c : ℝ} (hc : 0 < c) (o : ModeOpts) (hn : o.normalizeGp = false) (P : ProbitSet) (y : TrainLabels (n + 1))
    (K : Matrix (Fin (n + 1)) (Fin (n + 1)) ℝ)
    {invert : Matrix (Fin (n + 1)) (Fin (n + 1)) ℝ → Option (Matrix (Fin (n + 1)) (Fin (n + 1)) ℝ)}
    (hinv : InvertsMultiples invert) (F0 : Fin (n + 1) → ℝ) :
    findMode { o with deltaF := c * o.deltaF } (probitUnits c P) y (c ^ 2 • K) invert (c • F0) =
      (findMode o P y K invert F0).map (fitTimes c) := by
  have := findMode_times hc.ne' o (.inl hn) K (gpDerivatives_times hc P y) (logLikTraining_times hc P y) (.inr hinv) F0
  rwa [abs_of_pos hc] at this

/-- C118: the fitted model predicts `c` times the mean and `c ^ 2` times the variance. -/
theorem C118_predict {c : ℝ} (hc : c ≠ 0) (k : KExpr ℝ (Pt d)) (Y : Fin t → Pt d) (K W : Matrix (Fin t) (Fin t) ℝ)
    (F : Fin t → ℝ) (invert : Matrix (Fin t) (Fin t) ℝ → Option (Matrix (Fin t) (Fin t) ℝ)) (X : Fin n → Pt d) :
    prefGpPredict (kcov (kernelUnits c k)) Y (c ^ 2 • K) ((c ^ 2)⁻¹ • W) (c • F) invert X =
      (prefGpPredict (kcov k) Y K W F invert X).map (predTimes c) := by
  simp only [prefGpPredict, kcov, cov_units hc]
  cases k.cov X Y with
  | error e => rfl
  | ok Ks =>
    cases k.cov X X with
    | error e => rfl
    | ok Kss => exact laplacePredict_times hc K W F invert Ks Kss

/-- C118: from training points and labels to the prediction. -/
theorem C118_model {c : ℝ} (hc : 0 < c) (o : ModeOpts) (hn : o.normalizeGp = false) (P : ProbitSet) (k : KExpr ℝ (Pt d))
    (Y : Fin (n + 1) → Pt d) (y : TrainLabels (n + 1)) {K K' : Matrix (Fin (n + 1)) (Fin (n + 1)) ℝ}
    (hK : kcov k _ _ Y Y = .ok K) (hK' : kcov (kernelUnits c k) _ _ Y Y = .ok K')
    {invert : Matrix (Fin (n + 1)) (Fin (n + 1)) ℝ → Option (Matrix (Fin (n + 1)) (Fin (n + 1)) ℝ)}
    (hinv : InvertsMultiples invert) (F0 : Fin (n + 1) → ℝ) {f f' : ModeFit (n + 1)} {F F' : Fin (n + 1) → ℝ}
    {D D' : Derivs (n + 1)} (hf : findMode o P y K invert F0 = .ok f) (hF : f.F = some F) (hD : f.derivs = some D)
    (hf' : findMode { o with deltaF := c * o.deltaF } (probitUnits c P) y K' invert (c • F0) = .ok f') (hF' : f'.F = some F')
    (hD' : f'.derivs = some D') (X : Fin m → Pt d) :
    f'.loops = f.loops ∧ F' = c • F ∧ prefGpPredict (kcov (kernelUnits c k)) Y K' D'.1 F' invert X =
      (prefGpPredict (kcov k) Y K D.1 F invert X).map (predTimes c) := by
  have e := C118_kernel hc.ne' k Y Y
  have hK2 : k.cov Y Y = .ok K := hK
  have hK3 : (kernelUnits c k).cov Y Y = .ok K' := hK'
  rw [hK2, hK3] at e
  obtain rfl : K' = c ^ 2 • K := Except.ok.inj e
  rw [C118_fit hc o hn P y K hinv F0, hf] at hf'
  obtain rfl : fitTimes c f = f' := Except.ok.inj hf'
  simp only [fitTimes, hF, hD, Option.map_some, Option.some.injEq] at hF' hD'
  obtain rfl := hF'
  obtain rfl := hD'
  exact ⟨rfl, rfl, C118_predict hc.ne' k Y K D.1 F invert X⟩

/-- C118: GP regression of values in other units. -/
theorem C118_regression {c : ℝ} (hc : 0 < c) (k : KExpr ℝ (Pt d)) (mean : Pt d → ℝ) (st : GPState d) (X : Fin n → Pt d) :
    gpRegress (kcov (kernelUnits c k)) (fun x => c * mean x) (rowsUnits c st) X =
      (gpRegress (kcov k) mean st X).map (predTimes c) := by
  cases st with
  | none =>
    simp only [rowsUnits, Option.map_none, gpRegress, kcov, cov_units hc.ne']
    cases k.cov X X with
    | error e => rfl
    | ok A =>
      simp only [Except.map, predTimes, Except.ok.injEq, GPPred.mk.injEq, and_true]
      refine ⟨by funext; simp, ?_⟩
      funext i
      simp only [Matrix.smul_apply, Pi.smul_apply, smul_eq_mul]
      rw [mul_max_of_nonneg _ _ (by positivity), mul_zero]
  | some l =>
    have e : ∀ l : List (Pt d × ℝ × ℝ), l = l.map fun r => (r.1, r.2.1, r.2.2) := fun l => by simp
    simp only [rowsUnits, Option.map_some, gpRegress_map]
    rw [gpFn_units hc, gpRegress_fn]

/-- C118: points in other coordinates – scale `c`, offset `s` – have the same covariances. -/
theorem C118_coordinates {c : ℝ} (hc : 0 < c) (s : ℝ) (k : KExpr ℝ (Pt d)) (X : Fin n → Pt d) (Y : Fin m → Pt d) :
    (kernelCoords c s k).cov (fun i => pointUnits c s (X i)) (fun j => pointUnits c s (Y j)) = k.cov X Y :=
  cov_coords hc s k X Y

/-- C118: hence – the fit sees the points only through their covariances – the predictions are the same. -/
theorem C118_coordinates_predict {c : ℝ} (hc : 0 < c) (s : ℝ) (k : KExpr ℝ (Pt d)) (Y : Fin t → Pt d)
    (K W : Matrix (Fin t) (Fin t) ℝ) (F : Fin t → ℝ) (invert : Matrix (Fin t) (Fin t) ℝ → Option (Matrix (Fin t) (Fin t) ℝ))
    (X : Fin n → Pt d) :
    prefGpPredict (kcov (kernelCoords c s k)) (fun j => pointUnits c s (Y j)) K W F invert (fun i => pointUnits c s (X i)) =
      prefGpPredict (kcov k) Y K W F invert X := by
  simp only [prefGpPredict, kcov, cov_coords hc]

/-- C118: the same for GP regression. -/
theorem C118_coordinates_regression {c : ℝ} (hc : 0 < c) (s : ℝ) (k : KExpr ℝ (Pt d)) {mean mean' : Pt d → ℝ}
    (hm : ∀ x, mean' (pointUnits c s x) = mean x) (st : GPState d) (X : Fin n → Pt d) :
    gpRegress (kcov (kernelCoords c s k)) mean' (rowsCoords c s st) (fun i => pointUnits c s (X i)) =
      gpRegress (kcov k) mean st X := by
  cases st with
  | none => simp only [rowsCoords, Option.map_none, gpRegress, kcov, cov_coords hc]
  | some l =>
    simp only [rowsCoords, Option.map_some, gpRegress_map]
    rw [gpFn_coords hc s k hm, gpRegress_fn]

/-- C118, linear model: with other units of the attributes, or sums of attributes in place of attributes – any invertible
`A` – an update gives the weights that give every point the same utility as before, if the Hessian is not singular. -/
theorem C118_linear {A : Matrix (Fin d) (Fin d) ℝ} (hA : IsUnit A.det) (P : ProbitSet) (y : TrainLabels n)
    (X : Matrix (Fin n) (Fin d) ℝ) (w : Fin d → ℝ) (h : ∀ r, linDerivatives P y X w = .ok (some r) → IsUnit r.1.det) :
    linUpdate P y (X * A) npInv (A⁻¹ *ᵥ w) = (linUpdate P y X npInv w).map (Option.map (A⁻¹ *ᵥ ·)) ∧
    ∀ w', linValues (X * A) (A⁻¹ *ᵥ w') = linValues X w' := by
  have h1 := nonsing_inv_mul _ hA
  have h2 := mul_nonsing_inv _ hA
  exact ⟨linUpdate_coords h1 (linDerivatives_coords P y X h2) (fun w => by simp only [linLoss, linValues_coords X h2]) w (.inr h),
    fun w' => linValues_coords X h2 w'⟩

/-- C118, linear model: a rotation or reflection of the attributes rotates the result of the whole fit, without
assumptions. -/
theorem C118_linear_rotation {A : Matrix (Fin d) (Fin d) ℝ} (hA : A * Aᵀ = 1) (P : ProbitSet) (y : TrainLabels n)
    (X : Matrix (Fin n) (Fin d) ℝ) (w0 : Fin d → ℝ) :
    linFit P y (X * A) (Aᵀ *ᵥ w0) = (linFit P y X w0).map (Option.map (Aᵀ *ᵥ ·)) :=
  linFit_coords (mul_eq_one_comm.1 hA) (linDerivatives_coords P y X hA)
    (fun w => by simp only [linLoss, linValues_coords X hA]) rfl w0

/-- The update without labels from one value: the line search stops at the factor 33/32. -/
theorem noLabels_update (P : ProbitSet) (x : ℝ) (hx : x ≠ 0) :
    findModeUpdate P ⟨none, none, none⟩ (1 : Matrix (Fin 1) (Fin 1) ℝ) (fun M => some M⁻¹) ![x] =
      .ok (some ![-(x / 32)]) := by
  have hl : ∀ F, lossValue (likliF P ⟨none, none, none⟩ (1 : Matrix (Fin 1) (Fin 1) ℝ) F) =
      ((-(F 0 * F 0 / 2) - 1 / 2 * Real.log (2 * Real.pi) : ℝ) : WithBot ℝ) := by
    intro F
    simp only [likliF, logLikTraining, ordLogPart, pairLogPart, absLogPart, Except.map, Option.map_some, lossValue,
      WithBot.coe_inj]
    simp [dotProduct]
    ring
  have hd : descentDir (modeGradHess (1 : Matrix (Fin 1) (Fin 1) ℝ) ![x] (0, 0, 0)).1
      (modeGradHess (1 : Matrix (Fin 1) (Fin 1) ℝ) ![x] (0, 0, 0)).2 (fun M => some M⁻¹) = ![x] := by
    have e : (-1 : Matrix (Fin 1) (Fin 1) ℝ)⁻¹ = -1 := inv_eq_right_inv (by simp)
    simp only [descentDir, modeGradHess, inv_one, one_mulVec, neg_zero, zero_sub, e, vecMul_neg, vecMul_one, neg_neg]
  have hg : gpDerivatives P ⟨none, none, none⟩ ![x] = .ok (some ((0, 0, 0) : Derivs 1)) := by
    simp [gpDerivatives, pairPart, ordPart, absPart, Except.map]
  have hs : binarySearch (fun lam : ℝ => lossValue (likliF P ⟨none, none, none⟩ (1 : Matrix (Fin 1) (Fin 1) ℝ)
      (![x] - lam • ![x]))) 3 0 (3 / 2) = 33 / 32 := by
    have hx2 : 0 < x * x := mul_self_pos.2 hx
    have key : ∀ a b : ℝ, (lossValue (likliF P ⟨none, none, none⟩ (1 : Matrix (Fin 1) (Fin 1) ℝ) (![x] - a • ![x])) >
        lossValue (likliF P ⟨none, none, none⟩ (1 : Matrix (Fin 1) (Fin 1) ℝ) (![x] - b • ![x]))) ↔
        (1 - a) ^ 2 < (1 - b) ^ 2 := by
      intro a b
      rw [hl, hl, gt_iff_lt, WithBot.coe_lt_coe]
      simp only [Pi.sub_apply, Pi.smul_apply, cons_val_zero, smul_eq_mul]
      rw [show (x - b * x) * (x - b * x) = (1 - b) ^ 2 * (x * x) by ring,
        show (x - a * x) * (x - a * x) = (1 - a) ^ 2 * (x * x) by ring]
      constructor
      · intro h
        refine lt_of_mul_lt_mul_right ?_ hx2.le
        linarith
      · intro h
        have := mul_lt_mul_of_pos_right h hx2
        linarith
    simp only [binarySearch, binaryLoop, key]
    norm_num
  simp only [findModeUpdate, hg, bind, Except.bind, newtonUpdate, hd, hs, pure, Except.pure, Except.ok.injEq, Option.some.injEq]
  funext i
  fin_cases i
  simp
  ring

private lemma noLabels_step (o : ModeOpts) (ho : o.normalizeGp = false) (P : ProbitSet) (x : ℝ) (hx : x ≠ 0) :
    findModeStep o P ⟨none, none, none⟩ (1 : Matrix (Fin 1) (Fin 1) ℝ) (fun M => some M⁻¹) (some ![x]) =
      .ok (some ![-(x / 32)], open Classical in decide (o.deltaF < 33 / 32 * |x|)) := by
  have e : ‖(![-(x / 32)] - ![x] : Fin 1 → ℝ)‖ = 33 / 32 * |x| := by
    have : (![-(x / 32)] - ![x] : Fin 1 → ℝ) = fun _ => -(33 / 32) * x := by
      funext i
      fin_cases i
      simp
      ring
    rw [this, pi_norm_const, Real.norm_eq_abs, abs_mul]
    norm_num
  simp only [findModeStep, noLabels_update P x hx, Except.map, Option.bind_some, normalizeIterate, ho, Bool.false_eq_true,
    if_false, e]

private lemma loop_pass {α : Type*} {step : α → Except PyErr (α × Bool)} {maxloops fuel k : Nat} {F F' : α} {go : Bool}
    (h : step F = .ok (F', go)) (hk : k + 1 ≤ maxloops) :
    findModeLoop step maxloops (fuel + 1) F true k = findModeLoop step maxloops fuel F' go (k + 1) := by
  rw [findModeLoop]
  simp only [if_true, h]
  rw [if_neg (by omega)]

private lemma loop_stop {α : Type*} (step : α → Except PyErr (α × Bool)) (maxloops fuel k : Nat) (F : α) :
    findModeLoop step maxloops (fuel + 1) F false k = some (.ok (F, k)) := rfl

/-- The tolerance `delta_f = 0.0002` is not a multiple of anything: with utilities in smaller units and the default options
the loop stops earlier. Without labels, from the value 1 and with variance 1 it makes four passes; from 0.0001 and with
variance 0.00000001 – the same in other units – one pass. -/
theorem C118_tolerance_false : ∃ (c : ℝ) (P : ProbitSet) (f f' : ModeFit 1), 0 < c ∧
    findMode {} P ⟨none, none, none⟩ (1 : Matrix (Fin 1) (Fin 1) ℝ) (fun M => some M⁻¹) ![1] = .ok f ∧
    findMode {} (probitUnits c P) ⟨none, none, none⟩ (c ^ 2 • (1 : Matrix (Fin 1) (Fin 1) ℝ)) (fun M => some M⁻¹) (c • ![1]) =
      .ok f' ∧ f.loops = 4 ∧ f'.loops = 1 := by
  let P : ProbitSet := ⟨1, ⟨1, 1, []⟩, 0, 1, 80, 0⟩
  have hp : (1 : Matrix (Fin 1) (Fin 1) ℝ).PosDef := PosDef.one
  have hg : ∀ F, gpDerivatives P ⟨none, none, none⟩ F = .ok (some ((0, 0, 0) : Derivs 1)) := by
    intro F
    simp [gpDerivatives, pairPart, ordPart, absPart, Except.map]
  have st : ∀ (o : ModeOpts), o.normalizeGp = false → ∀ x : ℝ, x ≠ 0 → ∀ b : Bool, (b = true ↔ o.deltaF < 33 / 32 * |x|) →
      findModeStep o P ⟨none, none, none⟩ (1 : Matrix (Fin 1) (Fin 1) ℝ) (fun M => some M⁻¹) (some ![x]) =
        .ok (some ![-(x / 32)], b) := by
    intro o ho x hx b hb
    rw [noLabels_step o ho P x hx]
    congr
    rw [Bool.eq_iff_iff, decide_eq_true_iff, hb]
  have h1 : findMode {} P ⟨none, none, none⟩ (1 : Matrix (Fin 1) (Fin 1) ℝ) (fun M => some M⁻¹) ![1] =
      .ok ⟨some ![-(-(-(-(1 / 32) / 32) / 32) / 32)], 4, some (0, 0, 0)⟩ := by
    have s1 := st {} rfl 1 (by norm_num) true (by norm_num)
    have s2 := st {} rfl (-(1 / 32)) (by norm_num) true (by norm_num [abs_of_pos])
    have s3 := st {} rfl (-(-(1 / 32) / 32)) (by norm_num) true (by norm_num [abs_of_pos])
    have s4 := st {} rfl (-(-(-(1 / 32) / 32) / 32)) (by norm_num) false (by norm_num [abs_of_pos])
    simp only [findMode, hp, decide_true]
    rw [loop_pass s1 (by norm_num), loop_pass s2 (by norm_num), loop_pass s3 (by norm_num), loop_pass s4 (by norm_num),
      loop_stop]
    simp [bind, Except.bind, hg, Except.map]
  have h2 : findMode { deltaF := 2 } P ⟨none, none, none⟩ (1 : Matrix (Fin 1) (Fin 1) ℝ) (fun M => some M⁻¹) ![1] =
      .ok ⟨some ![-(1 / 32)], 1, some (0, 0, 0)⟩ := by
    have s1 := st { deltaF := 2 } rfl 1 (by norm_num) false (by norm_num)
    simp only [findMode, hp, decide_true]
    rw [loop_pass s1 (by norm_num), loop_stop]
    simp [bind, Except.bind, hg, Except.map]
  have hi : InvertsMultiples (fun M : Matrix (Fin 1) (Fin 1) ℝ => some M⁻¹) := fun M =>
    ⟨M⁻¹, rfl, fun c hc => congrArg some (inv_times c hc M)⟩
  have h3 := C118_fit (c := 1 / 10000) (by norm_num) { deltaF := 2 } rfl P ⟨none, none, none⟩ 1 hi ![1]
  rw [h2] at h3
  refine ⟨1 / 10000, P, _, fitTimes (1 / 10000) ⟨some ![-(1 / 32)], 1, some (0, 0, 0)⟩, by norm_num, h1, ?_, rfl, rfl⟩
  have e : ({} : ModeOpts) = { deltaF := 1 / 10000 * 2 } := by
    rw [ModeOpts.mk.injEq]
    norm_num
  rw [e]
  exact h3

/-- The hypotheses of `C118_fit`: an inversion routine that multiplies. -/
example : InvertsMultiples (fun M : Matrix (Fin n) (Fin n) ℝ => some M⁻¹) :=
  fun M => ⟨M⁻¹, rfl, fun c hc => congrArg some (inv_times c hc M)⟩

/-- The hypotheses of `C118_model`: one comparison, utilities in thousandths. -/
example : ∃ (K K' : Matrix (Fin 2) (Fin 2) ℝ), kcov (.leaf (.rbf 1 1 0)) _ _ (![![0], ![1]] : Fin 2 → Pt 1) ![![0], ![1]] = .ok K ∧
    kcov (kernelUnits 1000 (.leaf (.rbf 1 1 0))) _ _ (![![0], ![1]] : Fin 2 → Pt 1) ![![0], ![1]] = .ok K' ∧ K ≠ K' := by
  obtain ⟨K, hK⟩ := cov_returns (.leaf (.rbf 1 1 0)) (![![0], ![1]] : Fin 2 → Pt 1) ![![0], ![1]] (by norm_num)
  refine ⟨K, (1000 : ℝ) ^ 2 • K, hK, ?_, ?_⟩
  · have := C118_kernel (c := 1000) (by norm_num) (.leaf (.rbf 1 1 0)) (![![0], ![1]] : Fin 2 → Pt 1) ![![0], ![1]]
    simp only [kcov] at hK ⊢
    rw [this, hK]
    rfl
  · intro h
    have h0 : K 0 0 = 1 := by
      have e : K = _ := (Except.ok.inj hK).symm
      rw [e]
      simp [rbfEval, sqDist, noiseTerm]
    have := congrFun (congrFun h 0) 0
    rw [Matrix.smul_apply, h0] at this
    norm_num at this

/-- The hypotheses of `C118_linear`: weights per metre instead of per kilometre, one comparison of two points. -/
example : IsUnit (!![1000] : Matrix (Fin 1) (Fin 1) ℝ).det := by simp

/-- The hypotheses of `C118_linear_rotation`: two attributes exchanged. -/
example : (!![0, 1; 1, 0] : Matrix (Fin 2) (Fin 2) ℝ) * (!![0, 1; 1, 0] : Matrix (Fin 2) (Fin 2) ℝ)ᵀ = 1 := by
  ext i j
  fin_cases i <;> fin_cases j <;> simp [Matrix.mul_apply]

/-- The hypotheses of `C118_coordinates_regression`. -/
example (x : Pt d) : (fun _ : Pt d => (0 : ℝ)) (pointUnits (9 / 5) 32 x) = (fun _ => 0) x := rfl

end Lop.Props
