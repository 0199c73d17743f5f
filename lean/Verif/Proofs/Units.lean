import Verif.Spec.Units
import Verif.Proofs.Unasked
import Verif.Proofs.AbsProbit

/-! # Helper lemmas: utilities multiplied by a number -/

namespace Lop

open Lop.Spec Matrix

variable {n : Nat}

theorem inv_times (c : ℝ) (hc : c ≠ 0) (M : Matrix (Fin n) (Fin n) ℝ) : (c • M)⁻¹ = c⁻¹ • M⁻¹ := by
  by_cases h : IsUnit M.det
  · refine inv_eq_right_inv ?_
    rw [Matrix.smul_mul, Matrix.mul_smul, smul_smul, mul_inv_cancel₀ hc, one_smul, mul_nonsing_inv _ h]
  · have h2 : ¬ IsUnit (c • M).det := by
      rw [det_smul]
      intro h3
      exact h (isUnit_of_mul_isUnit_right h3)
    rw [nonsing_inv_apply_not_isUnit _ h, nonsing_inv_apply_not_isUnit _ h2, smul_zero]

theorem posDef_times {c : ℝ} (hc : 0 < c) (M : Matrix (Fin n) (Fin n) ℝ) : (c • M).PosDef ↔ M.PosDef := by
  constructor
  · intro h
    have := h.smul (inv_pos.2 hc)
    rwa [smul_smul, inv_mul_cancel₀ hc.ne', one_smul] at this
  · exact fun h => h.smul hc

theorem lossValue_shift {α : Type*} {f f' : α → Except PyErr (Option ℝ)} (c : ℝ)
    (h : ∀ x, f' x = (f x).map fun l => l.map (· + c)) (a b : α) :
    lossValue (f' a) > lossValue (f' b) ↔ lossValue (f a) > lossValue (f b) := by
  simp only [h]
  cases f a with
  | error _ =>
    cases f b with
    | error _ => exact Iff.rfl
    | ok r => cases r <;> simp [Except.map, lossValue]
  | ok q =>
    cases q with
    | none =>
      cases f b with
      | error _ => exact Iff.rfl
      | ok r => cases r <;> simp [Except.map, lossValue]
    | some q =>
      cases f b with
      | error _ => simp [Except.map, lossValue]
      | ok r =>
        cases r with
        | none => simp [Except.map, lossValue]
        | some r =>
          simp only [Except.map, Option.map_some, lossValue, gt_iff_lt, WithBot.coe_lt_coe]
          constructor <;> intro h <;> linarith

section times

variable {a : ℝ} (ha : a ≠ 0) {P P' : ProbitSet} {y y' : TrainLabels n} {K : Matrix (Fin n) (Fin n) ℝ}

include ha

theorem likliF_times (hl : ∀ F, logLikTraining P' y' (a • F) = logLikTraining P y F) :
    ∃ c, ∀ F, likliF P' y' (a ^ 2 • K) (a • F) = (likliF P y K F).map fun l => l.map (· + c) := by
  have ha2 : a ^ 2 ≠ 0 := pow_ne_zero 2 ha
  refine ⟨Real.log K.det / 2 - Real.log (a ^ 2 • K).det / 2, fun F => ?_⟩
  have e : (a • F) ⬝ᵥ ((a ^ 2 • K)⁻¹ *ᵥ (a • F)) = F ⬝ᵥ (K⁻¹ *ᵥ F) := by
    rw [inv_times _ ha2, smul_mulVec, mulVec_smul, smul_dotProduct, dotProduct_smul, dotProduct_smul]
    simp only [smul_eq_mul]
    field_simp
  simp only [likliF, hl, e]
  cases logLikTraining P y F with
  | error _ => rfl
  | ok q =>
    cases q with
    | none => rfl
    | some q =>
      simp only [Except.map, Option.map_some, Except.ok.injEq, Option.some.injEq]
      ring

theorem findModeUpdate_times (hd : ∀ F, gpDerivatives P' y' (a • F) = (gpDerivatives P y F).map (Option.map (derivsTimes a)))
    (hl : ∀ F, logLikTraining P' y' (a • F) = logLikTraining P y F)
    {invert : Matrix (Fin n) (Fin n) ℝ → Option (Matrix (Fin n) (Fin n) ℝ)} (hinv : |a| = 1 ∨ InvertsMultiples invert)
    (F : Fin n → ℝ) :
    findModeUpdate P' y' (a ^ 2 • K) invert (a • F) = (findModeUpdate P y K invert F).map (Option.map (a • ·)) := by
  have ha2 : a ^ 2 ≠ 0 := pow_ne_zero 2 ha
  obtain ⟨c, hc⟩ := likliF_times (K := K) ha hl
  simp only [findModeUpdate, hd]
  cases gpDerivatives P y F with
  | error e => rfl
  | ok r =>
    cases r with
    | none => rfl
    | some r =>
      have e1 : modeGradHess (a ^ 2 • K) (a • F) (derivsTimes a r) =
          (a⁻¹ • (modeGradHess K F r).1, (a ^ 2)⁻¹ • (modeGradHess K F r).2) := by
        simp only [modeGradHess, derivsTimes, inv_times _ ha2, smul_mulVec, mulVec_smul, smul_sub, smul_neg, smul_smul]
        rw [show a * (a ^ 2)⁻¹ = a⁻¹ by field_simp]
      have e2 : descentDir (a⁻¹ • (modeGradHess K F r).1) ((a ^ 2)⁻¹ • (modeGradHess K F r).2) invert =
          a • descentDir (modeGradHess K F r).1 (modeGradHess K F r).2 invert := by
        rcases hinv with h | h
        · have h2 : a ^ 2 = 1 := by rw [← sq_abs, h, one_pow]
          have h1 : a⁻¹ = a := by field_simp; exact h2.symm
          simp only [descentDir, h2, inv_one, one_smul, h1]
          cases invert (modeGradHess K F r).2 with
          | none => rfl
          | some M => simp only [smul_vecMul]
        · obtain ⟨T, hT, hT2⟩ := h (modeGradHess K F r).2
          simp only [descentDir, hT, hT2 _ (inv_ne_zero ha2), inv_inv, smul_vecMul, vecMul_smul, smul_smul]
          rw [show a ^ 2 * a⁻¹ = a by field_simp]
      have e3 : ∀ (F d : Fin n → ℝ) (lam : ℝ), a • F - lam • a • d = a • (F - lam • d) := by
        intro F d lam
        rw [smul_sub, smul_comm]
      simp only [Except.map, bind, Except.bind, Option.map_some, e1, newtonUpdate, e2, e3, binarySearch]
      rw [binaryLoop_order fun s t => lossValue_shift (α := ℝ)
        (f := fun lam => likliF P y K (F - lam • descentDir (modeGradHess K F r).1 (modeGradHess K F r).2 invert))
        (f' := fun lam => likliF P' y' (a ^ 2 • K)
          (a • (F - lam • descentDir (modeGradHess K F r).1 (modeGradHess K F r).2 invert))) c (fun lam => hc _) s t]
      rfl

end times

theorem normalizeIterate_times {a : ℝ} (ha : a ≠ 0) (o : ModeOpts) (k : ℝ)
    (hn : o.normalizeGp = false ∨ |a| = 1 ∧ o.normalizePositive = false) (F : Fin (n + 1) → ℝ) :
    normalizeIterate { o with deltaF := k } (a • F) = (normalizeIterate o F).map (a • ·) := by
  rcases hn with h | ⟨h1, h2⟩
  · simp [normalizeIterate, h]
  · have e : ‖a • F‖ = ‖F‖ := by rw [norm_smul, Real.norm_eq_abs, h1, one_mul]
    simp only [normalizeIterate, h2, e]
    split
    · simp only [Bool.false_eq_true, if_false]
      split
      · rfl
      · simp only [Option.map_some]
        congr 1
        funext i
        simp [mul_div_assoc]
    · rfl

theorem findModeStep_times {a : ℝ} (ha : a ≠ 0) (o : ModeOpts)
    (hn : o.normalizeGp = false ∨ |a| = 1 ∧ o.normalizePositive = false) {P P' : ProbitSet} {y y' : TrainLabels (n + 1)}
    {K : Matrix (Fin (n + 1)) (Fin (n + 1)) ℝ}
    (hd : ∀ F, gpDerivatives P' y' (a • F) = (gpDerivatives P y F).map (Option.map (derivsTimes a)))
    (hl : ∀ F, logLikTraining P' y' (a • F) = logLikTraining P y F)
    {invert : Matrix (Fin (n + 1)) (Fin (n + 1)) ℝ → Option (Matrix (Fin (n + 1)) (Fin (n + 1)) ℝ)}
    (hinv : |a| = 1 ∨ InvertsMultiples invert) (F : Option (Fin (n + 1) → ℝ)) :
    findModeStep { o with deltaF := |a| * o.deltaF } P' y' (a ^ 2 • K) invert (F.map (a • ·)) =
      (findModeStep o P y K invert F).map (Prod.map (Option.map (a • ·)) id) := by
  cases F with
  | none => rfl
  | some F =>
    simp only [Option.map_some, findModeStep, findModeUpdate_times (K := K) ha hd hl hinv F]
    cases findModeUpdate P y K invert F with
    | error e => rfl
    | ok r =>
      cases r with
      | none => rfl
      | some G =>
        simp only [Except.map, Option.map_some, Option.bind_some, normalizeIterate_times ha o _ hn]
        cases normalizeIterate o G with
        | none => rfl
        | some G' =>
          simp only [Option.map_some, Prod.map, id]
          have : |a| * o.deltaF < ‖a • G' - a • F‖ ↔ o.deltaF < ‖G' - F‖ := by
            rw [← smul_sub, norm_smul, Real.norm_eq_abs]
            exact mul_lt_mul_iff_right₀ (abs_pos.2 ha)
          simp only [this]

theorem findMode_times {a : ℝ} (ha : a ≠ 0) (o : ModeOpts)
    (hn : o.normalizeGp = false ∨ |a| = 1 ∧ o.normalizePositive = false) {P P' : ProbitSet} {y y' : TrainLabels (n + 1)}
    (K : Matrix (Fin (n + 1)) (Fin (n + 1)) ℝ)
    (hd : ∀ F, gpDerivatives P' y' (a • F) = (gpDerivatives P y F).map (Option.map (derivsTimes a)))
    (hl : ∀ F, logLikTraining P' y' (a • F) = logLikTraining P y F)
    {invert : Matrix (Fin (n + 1)) (Fin (n + 1)) ℝ → Option (Matrix (Fin (n + 1)) (Fin (n + 1)) ℝ)}
    (hinv : |a| = 1 ∨ InvertsMultiples invert) (F0 : Fin (n + 1) → ℝ) :
    findMode { o with deltaF := |a| * o.deltaF } P' y' (a ^ 2 • K) invert (a • F0) =
      (findMode o P y K invert F0).map (fitTimes a) := by
  have hgo : (open Classical in decide (a ^ 2 • K).PosDef) = (open Classical in decide K.PosDef) :=
    decide_eq_decide.2 (posDef_times (by positivity) K)
  have h := findModeLoop_to (Option.map (a • ·)) (findModeStep_times (K := K) ha o hn hd hl hinv) o.maxloops (o.maxloops + 2)
    (some F0) (open Classical in decide K.PosDef) 0
  unfold findMode
  rw [hgo]
  simp only [Option.map_some] at h ⊢
  rw [h]
  cases findModeLoop (findModeStep o P y K invert) o.maxloops (o.maxloops + 2) (some F0)
      (open Classical in decide K.PosDef) 0 with
  | none => rfl
  | some r =>
    cases r with
    | error e => rfl
    | ok r =>
      obtain ⟨F, k⟩ := r
      cases F with
      | none => rfl
      | some F =>
        simp only [Option.map_some, Except.map, bind, Except.bind, Prod.map, id, hd]
        cases gpDerivatives P y F <;> rfl

theorem laplacePredict_times {a : ℝ} (ha : a ≠ 0) {t : Nat} (K W : Matrix (Fin t) (Fin t) ℝ) (F : Fin t → ℝ)
    (invert : Matrix (Fin t) (Fin t) ℝ → Option (Matrix (Fin t) (Fin t) ℝ))
    (Ks : Matrix (Fin n) (Fin t) ℝ) (Kss : Matrix (Fin n) (Fin n) ℝ) :
    laplacePredict (a ^ 2 • K) ((a ^ 2)⁻¹ • W) (a • F) invert (a ^ 2 • Ks) (a ^ 2 • Kss) =
      (laplacePredict K W F invert Ks Kss).map (predTimes a) := by
  have ha2 : a ^ 2 ≠ 0 := pow_ne_zero 2 ha
  have e1 : ((a ^ 2)⁻¹ • W) * (a ^ 2 • K) = W * K := by
    rw [Matrix.smul_mul, Matrix.mul_smul, smul_smul, inv_mul_cancel₀ ha2, one_smul]
  simp only [laplacePredict, e1]
  by_cases hp : K.PosDef
  · rw [if_pos hp, if_pos ((posDef_times (by positivity) K).2 hp)]
    cases invert (1 + W * K) with
    | none => rfl
    | some T =>
      have e2 : a ^ 2 • Kss - a ^ 2 • Ks * T * ((a ^ 2)⁻¹ • W * (a ^ 2 • Ks)ᵀ) = a ^ 2 • (Kss - Ks * T * (W * Ksᵀ)) := by
        rw [transpose_smul, Matrix.smul_mul _ W, Matrix.mul_smul W, smul_smul, inv_mul_cancel₀ ha2, one_smul, smul_sub,
          Matrix.smul_mul, Matrix.smul_mul]
      have e3 : (a ^ 2 • Ks) *ᵥ ((a ^ 2 • K)⁻¹ *ᵥ (a • F)) = a • (Ks *ᵥ (K⁻¹ *ᵥ F)) := by
        rw [inv_times _ ha2, smul_mulVec, smul_mulVec, mulVec_smul, mulVec_smul, mulVec_smul, smul_smul, smul_smul]
        rw [show a ^ 2 * (a ^ 2)⁻¹ * a = a by field_simp]
      simp only [Except.map, predTimes, e2, e3]
      congr 2
      funext i
      simp only [Matrix.smul_apply, Pi.smul_apply, smul_eq_mul]
      rw [mul_max_of_nonneg _ _ (by positivity), mul_zero]
  · rw [if_neg hp, if_neg fun h => hp ((posDef_times (by positivity) K).1 h)]
    rfl

/-! ### The probits -/

theorem assignVec_times (c : ℝ) (l : List (Fin n × ℝ)) : assignVec (l.map fun e => (e.1, c * e.2)) = c • assignVec l := by
  have : ∀ (l : List (Fin n × ℝ)) (M : Fin n → ℝ),
      (l.map fun e => (e.1, c * e.2)).foldl (fun M e => Function.update M e.1 e.2) (c • M) =
        c • l.foldl (fun M e => Function.update M e.1 e.2) M := by
    intro l
    induction l with
    | nil => exact fun _ => rfl
    | cons e l ih =>
      intro M
      simp only [List.map_cons, List.foldl_cons]
      rw [← ih]
      congr 1
      funext i
      by_cases h : i = e.1
      · subst h
        simp
      · simp [Function.update_of_ne h]
  have h := this l fun _ => 0
  rw [show c • (fun _ => 0 : Fin n → ℝ) = fun _ => 0 by funext; simp] at h
  exact h

theorem assignGrid_times (c : ℝ) (l : List (Fin n × ℝ)) (i j : Fin n) :
    assignGrid (l.map fun e => (e.1, c * e.2)) i j = c * assignGrid l i j := by
  have : ∀ (l : List ((Fin n × Fin n) × ℝ)) (M : Fin n → Fin n → ℝ),
      (l.map fun e => (e.1, c * e.2)).foldl (fun M a r s => if (r, s) = a.1 then a.2 else M r s) (fun i j => c * M i j) =
        fun i j => c * l.foldl (fun M a r s => if (r, s) = a.1 then a.2 else M r s) M i j := by
    intro l
    induction l with
    | nil => exact fun _ => rfl
    | cons e l ih =>
      intro M
      simp only [List.map_cons, List.foldl_cons]
      rw [← ih]
      congr 1
      funext r s
      by_cases h : (r, s) = e.1 <;> simp [h]
  have h := this (l.zipIdx.flatMap fun (e, i) => l.zipIdx.map fun (e', j) => ((e'.1, e.1), if i = j then e.2 else 0))
    fun _ _ => 0
  rw [show (fun i j => c * (fun _ _ => 0 : Fin n → Fin n → ℝ) i j) = fun _ _ => 0 by funext; simp] at h
  simp only [assignGrid]
  have h2 := congrFun (congrFun h i) j
  rw [← h2]
  congr 1
  simp only [List.zipIdx_map, List.flatMap_map, List.map_flatMap, List.map_map, Function.comp_def, Prod.map, id, mul_ite, mul_zero]

theorem isqrt2sig_times (c sigma : ℝ) : isqrt2sig (c * sigma) = c⁻¹ * isqrt2sig sigma := by
  simp only [isqrt2sig, one_div, mul_inv]
  ring

theorem zk_times {c : ℝ} (hc : c ≠ 0) (sigma : ℝ) (F : Fin n → ℝ) (p : IPair n) : zk (c * sigma) (c • F) p = zk sigma F p := by
  simp only [zk, isqrt2sig_times, Pi.smul_apply, smul_eq_mul]
  field_simp

theorem list_sum_mul (c : ℝ) {α : Type*} (l : List α) (f : α → ℝ) : (l.map fun x => c * f x).sum = c * (l.map f).sum := by
  induction l with
  | nil => simp
  | cons x l ih => simp only [List.map_cons, List.sum_cons, ih, mul_add]

theorem prefDerivatives_times {c : ℝ} (hc : c ≠ 0) (sigma : ℝ) (y : List (IPair n)) (F : Fin n → ℝ) :
    prefDerivatives (c * sigma) y (c • F) = derivsTimes c (prefDerivatives sigma y F) := by
  refine Prod.ext ?_ (Prod.ext ?_ ?_)
  · ext i j
    simp only [prefDerivatives, derivsTimes, Matrix.smul_apply, smul_eq_mul, prefW_apply, zk_times hc, isqrt2sig_times]
    rw [← list_sum_mul]
    congr 1
    refine List.map_congr_left fun p _ => ?_
    ring
  · funext i
    simp only [prefDerivatives, derivsTimes, Pi.smul_apply, smul_eq_mul, prefDerv_apply, zk_times hc, isqrt2sig_times]
    rw [← list_sum_mul]
    congr 1
    refine List.map_congr_left fun p _ => ?_
    ring
  · simp only [prefDerivatives, derivsTimes, prefLogLik, zk_times hc]

theorem zk_turned (sigma : ℝ) (F : Fin n → ℝ) (p : IPair n) : zk sigma ((-1 : ℝ) • F) (pairTurned p) = zk sigma F p := by
  simp only [zk, pairTurned, Pi.smul_apply, smul_eq_mul]
  push_cast
  ring

theorem prefDerivatives_turned (sigma : ℝ) (y : List (IPair n)) (F : Fin n → ℝ) :
    prefDerivatives sigma (y.map pairTurned) ((-1 : ℝ) • F) = derivsTimes (-1) (prefDerivatives sigma y F) := by
  have hi : ∀ (p : IPair n) i, inc (pairTurned p) i = inc p i := fun p i => rfl
  have hk : ∀ p : IPair n, (pairTurned p).dk = -p.dk := fun p => rfl
  refine Prod.ext ?_ (Prod.ext ?_ ?_)
  · ext i j
    simp only [prefDerivatives, derivsTimes, Matrix.smul_apply, smul_eq_mul, prefW_apply]
    rw [← list_sum_mul, List.map_map]
    congr 1
    refine List.map_congr_left fun p _ => ?_
    simp only [Function.comp_apply, zk_turned, hi, hk]
    push_cast
    ring
  · funext i
    simp only [prefDerivatives, derivsTimes, Pi.smul_apply, smul_eq_mul, prefDerv_apply]
    rw [← list_sum_mul, List.map_map]
    congr 1
    refine List.map_congr_left fun p _ => ?_
    simp only [Function.comp_apply, zk_turned, hi, hk]
    push_cast
    ring
  · simp only [prefDerivatives, derivsTimes, prefLogLik, List.map_map, Function.comp_def, zk_turned]

theorem scaled_arg {c : ℝ} (hc : c ≠ 0) (sigma f : ℝ) : c * f * isqrt2sig (c * sigma) = f * isqrt2sig sigma := by
  rw [isqrt2sig_times]
  field_simp

theorem alphaBeta_times {c : ℝ} (hc : c ≠ 0) (sigma v eps f : ℝ) :
    alphaBeta (c * sigma) v eps (c * f) = alphaBeta sigma v eps f := by
  simp only [alphaBeta, meanLink, scaled_arg hc]

theorem absDerivatives_times {c : ℝ} (hc : c ≠ 0) (s v eps : ℝ) (y : List (ℝ × Fin n)) (F : Fin n → ℝ) :
    absDerivatives (c * s) v eps y (c • F) =
      (fun i j => (c ^ 2)⁻¹ * (absDerivatives s v eps y F).1 i j, c⁻¹ • (absDerivatives s v eps y F).2.1,
        (absDerivatives s v eps y F).2.2) := by
  have h1 : ∀ r f, absDpy (c * s) v eps r (c * f) = c⁻¹ * absDpy s v eps r f := by
    intro r f
    simp only [absDpy, alphaBeta_times hc, scaled_arg hc]
    rw [isqrt2sig_times]
    ring
  have h2 : ∀ r f, absWdiag (c * s) v eps r (c * f) = (c ^ 2)⁻¹ * absWdiag s v eps r f := by
    intro r f
    simp only [absWdiag, alphaBeta_times hc, scaled_arg hc, i2var]
    rw [isqrt2sig_times]
    field_simp
  have h3 : ∀ r f, absPy (c * s) v eps r (c * f) = absPy s v eps r f := by
    intro r f
    simp only [absPy, alphaBeta_times hc]
  refine Prod.ext ?_ (Prod.ext ?_ ?_)
  · funext i j
    have := congrFun (assignVec_times (c ^ 2)⁻¹ (y.map fun p => (p.2, absWdiag s v eps p.1 (F p.2)))) i
    simp only [List.map_map, Function.comp_def, Pi.smul_apply, smul_eq_mul] at this
    simp only [absDerivatives, assignDiag, Pi.smul_apply, smul_eq_mul, h2, this]
    split <;> simp
  · have := assignVec_times c⁻¹ (y.map fun p => (p.2, absDpy s v eps p.1 (F p.2)))
    simp only [List.map_map, Function.comp_def] at this
    simp only [absDerivatives, Pi.smul_apply, smul_eq_mul, h1, this]
  · simp only [absDerivatives, Pi.smul_apply, smul_eq_mul, h3]

theorem absLogLik_times {c : ℝ} (hc : c ≠ 0) (s v eps : ℝ) (y : List (ℝ × Fin n)) (F : Fin n → ℝ) :
    absLogLik (c * s) v eps y (c • F) = absLogLik s v eps y F := by
  simp only [absLogLik, absPy, Pi.smul_apply, smul_eq_mul, alphaBeta_times hc]

/-- The thresholds and the scale of the ordinal probit in other units. -/
theorem ord_units_zero {c : ℝ} (hc : 0 < c) (sigma f : ℝ) (b : Bnd ℝ) :
    bndZ (1 / (c * sigma)) (c * f) (bndUnits c b) = bndZ (1 / sigma) f b := by
  have h : 0 ≤ 1 / (c * sigma) ↔ 0 ≤ 1 / sigma := by
    rw [one_div, one_div, inv_nonneg, inv_nonneg, mul_nonneg_iff_of_pos_left hc]
  cases b with
  | fin r =>
    simp only [bndUnits, bndZ, Bnd.fin.injEq, one_div, mul_inv]
    field_simp
  | neg => simp only [bndUnits, bndZ, h]
  | pos => simp only [bndUnits, bndZ, h]

section ordUnits

variable {c : ℝ} (hc : 0 < c) (P : ProbitSet)

include hc

theorem ordCdf_times (y : Nat) (f : ℝ) : ordCdf (probitUnits c P).ord y (c * f) = ordCdf P.ord y f := by
  simp only [ordCdf, probitUnits, List.getElem?_map]
  cases P.ord.b[y]? with
  | none => rfl
  | some b => simp only [Option.map_some, ord_units_zero hc]

theorem ordPdf_times (y : Nat) (f : ℝ) : ordPdf (probitUnits c P).ord y (c * f) = ordPdf P.ord y f := by
  simp only [ordPdf, probitUnits, List.getElem?_map]
  cases P.ord.b[y]? with
  | none => rfl
  | some b => simp only [Option.map_some, ord_units_zero hc]

theorem ordZ_times (y : Nat) (f : ℝ) : ordZ (probitUnits c P).ord y (c * f) = ordZ P.ord y f := by
  simp only [ordZ, probitUnits, List.getElem?_map]
  cases P.ord.b[y]? with
  | none => rfl
  | some b =>
    cases b with
    | fin r =>
      simp only [Option.map_some, bndUnits, Except.ok.injEq, Option.some.injEq, one_div, mul_inv]
      field_simp
    | neg => rfl
    | pos => rfl

theorem ordLikEach_times (y : List (Int × Fin n)) (F : Fin n → ℝ) :
    ordLikEach (probitUnits c P).ord y (c • F) = ordLikEach P.ord y F := by
  simp only [ordLikEach, ordLik, Pi.smul_apply, smul_eq_mul, ordCdf_times hc]

theorem ordDerv1_times (eps : ℝ) (y : Nat) (f l : ℝ) :
    ordDerv1 (probitUnits c P).ord eps y (c * f) l =
      (ordDerv1 P.ord eps y f l).map fun r => r.map fun e => (c⁻¹ * e.1, (c ^ 2)⁻¹ * e.2) := by
  have hs : (probitUnits c P).ord.sigma = c * P.ord.sigma := rfl
  have hn : (probitUnits c P).ord.n = P.ord.n := rfl
  have hi : 1 / (c * P.ord.sigma) = c⁻¹ * (1 / P.ord.sigma) := by rw [one_div, mul_inv, one_div]
  simp only [ordDerv1, ordZ_times hc, ordPdf_times hc, hs, hn, hi]
  split
  · split
    · cases ordZ P.ord (y + 1) f with
      | error e => rfl
      | ok z =>
        cases z with
        | none => rfl
        | some z =>
          simp only [bind, Except.bind, pure, Except.pure, Except.map, Option.map_some, Except.ok.injEq, Option.some.injEq,
            Prod.mk.injEq]
          constructor <;> ring
    · split
      · cases ordZ P.ord y f with
        | error e => rfl
        | ok z =>
          cases z with
          | none => rfl
          | some z =>
            simp only [bind, Except.bind, pure, Except.pure, Except.map, Option.map_some, Except.ok.injEq, Option.some.injEq,
              Prod.mk.injEq]
            constructor <;> ring
      · cases ordZ P.ord (y + 1) f with
        | error e => rfl
        | ok z1 =>
          cases ordZ P.ord y f with
          | error e => rfl
          | ok z2 =>
            cases z1 with
            | none => rfl
            | some z1 =>
              cases z2 with
              | none => rfl
              | some z2 =>
                simp only [bind, Except.bind, pure, Except.pure, Except.map, ordSmallMiddle, hi]
                split
                · rfl
                · simp only [Option.map_some, Except.ok.injEq, Option.some.injEq, Prod.mk.injEq]
                  constructor <;> ring
  · cases ordPdf P.ord (y + 1) f with
    | error e => rfl
    | ok p1 =>
      cases ordPdf P.ord y f with
      | error e => rfl
      | ok p2 =>
        simp only [bind, Except.bind, pure, Except.pure, Except.map, Option.map_some, Except.ok.injEq, Option.some.injEq,
          Prod.mk.injEq]
        constructor <;> ring

theorem ordDerivatives_times (eps : ℝ) (y : List (Int × Fin n)) (F : Fin n → ℝ) :
    ordDerivatives (probitUnits c P).ord eps y (c • F) =
      (ordDerivatives P.ord eps y F).map fun r => r.map fun r => (fun i j => (c ^ 2)⁻¹ * r.1 i j, c⁻¹ • r.2.1, r.2.2) := by
  simp only [ordDerivatives, ordLikEach_times hc]
  cases hl : ordLikEach P.ord y F with
  | error e => rfl
  | ok l =>
    simp only [bind, Except.bind, Pi.smul_apply, smul_eq_mul, ordDerv1_times hc]
    have e1 : (y.zip l).mapM (fun x => (ordDerv1 P.ord eps (x.1.1 - 1).toNat (F x.1.2) x.2).map
          fun r => r.map fun e => (c⁻¹ * e.1, (c ^ 2)⁻¹ * e.2)) =
        ((y.zip l).mapM fun x => ordDerv1 P.ord eps (x.1.1 - 1).toNat (F x.1.2) x.2).map
          fun d => d.map fun r => r.map fun e => (c⁻¹ * e.1, (c ^ 2)⁻¹ * e.2) := by
      induction y.zip l with
      | nil => rfl
      | cons x z ih =>
        rw [List.mapM_cons, List.mapM_cons, ih]
        cases ordDerv1 P.ord eps (x.1.1 - 1).toNat (F x.1.2) x.2 with
        | error e => rfl
        | ok a =>
          cases z.mapM fun x => ordDerv1 P.ord eps (x.1.1 - 1).toNat (F x.1.2) x.2 <;> rfl
    rw [e1]
    cases (y.zip l).mapM fun x => ordDerv1 P.ord eps (x.1.1 - 1).toNat (F x.1.2) x.2 with
    | error e => rfl
    | ok d =>
      have e2 : (d.map fun r => r.map fun e : ℝ × ℝ => (c⁻¹ * e.1, (c ^ 2)⁻¹ * e.2)).mapM id =
          (d.mapM id).map fun d => d.map fun e : ℝ × ℝ => (c⁻¹ * e.1, (c ^ 2)⁻¹ * e.2) := by
        induction d with
        | nil => rfl
        | cons x d ih =>
          rw [List.map_cons, List.mapM_cons, List.mapM_cons, ih]
          cases x with
          | none => rfl
          | some x => cases d.mapM id <;> rfl
      simp only [Except.map, pure, Except.pure, e2]
      cases d.mapM id with
      | none => rfl
      | some d =>
        simp only [Option.map_some, Option.bind_some]
        cases (l.map npLog).mapM id with
        | none => rfl
        | some py =>
          have z1 : ∀ (idx : List (Fin n)) (g : ℝ × ℝ → ℝ) (k : ℝ), idx.zip (d.map fun e => k * g e) =
              (idx.zip (d.map g)).map fun e => (e.1, k * e.2) := by
            intro idx g k
            rw [show (d.map fun e => k * g e) = (d.map g).map fun x => k * x by rw [List.map_map]; rfl, List.zip_map_right]
            rfl
          simp only [Option.bind_some, Option.map_some, List.map_map, Function.comp_def, Except.ok.injEq, Option.some.injEq]
          have z2 : (d.map fun e => -((c ^ 2)⁻¹ * e.2)) = d.map fun e => (c ^ 2)⁻¹ * (-e.2) :=
            List.map_congr_left fun e _ => by ring
          refine Prod.ext ?_ (Prod.ext ?_ rfl)
          · funext i j
            simp only [z2]
            rw [z1 _ (fun e => -e.2), assignGrid_times]
          · simp only
            rw [z1 _ (fun e => e.1), assignVec_times]

theorem gpDerivatives_times (y : TrainLabels n) (F : Fin n → ℝ) :
    gpDerivatives (probitUnits c P) y (c • F) = (gpDerivatives P y F).map (Option.map (derivsTimes c)) := by
  have hp : pairPart (probitUnits c P).sigma (c • F) y.pairs = derivsTimes c (pairPart P.sigma F y.pairs) := by
    cases y.pairs with
    | none => simp [pairPart, derivsTimes]
    | some l => exact prefDerivatives_times hc.ne' P.sigma l F
  have ha : absPart (probitUnits c P) (c • F) y.abs = derivsTimes c (absPart P F y.abs) := by
    cases y.abs with
    | none => simp [absPart, derivsTimes]
    | some l =>
      have := absDerivatives_times hc.ne' P.absSigma P.absV P.absEps l F
      simp only [absPart, probitUnits, this]
      rfl
  have ho : ordPart (probitUnits c P) (c • F) y.ord = (ordPart P F y.ord).map (Option.map (derivsTimes c)) := by
    cases y.ord with
    | none => simp [ordPart, derivsTimes, Except.map]
    | some l =>
      have := ordDerivatives_times hc P P.ordEps l F
      simp only [ordPart]
      rw [show (probitUnits c P).ordEps = P.ordEps from rfl, this]
      cases ordDerivatives P.ord P.ordEps l F with
      | error e => rfl
      | ok r => cases r <;> rfl
  simp only [gpDerivatives, hp, ha, ho]
  cases ordPart P F y.ord with
  | error e => rfl
  | ok r =>
    cases r with
    | none => rfl
    | some r => simp only [Except.map, Option.map_some, derivsTimes, smul_add]

theorem logLikTraining_times (y : TrainLabels n) (F : Fin n → ℝ) :
    logLikTraining (probitUnits c P) y (c • F) = logLikTraining P y F := by
  have hp : pairLogPart (probitUnits c P) (c • F) y.pairs = pairLogPart P F y.pairs := by
    cases y.pairs with
    | none => rfl
    | some l => exact congrArg (·.2.2) (prefDerivatives_times hc.ne' P.sigma l F)
  have ha : absLogPart (probitUnits c P) (c • F) y.abs = absLogPart P F y.abs := by
    cases y.abs with
    | none => rfl
    | some l => exact absLogLik_times hc.ne' P.absSigma P.absV P.absEps l F
  have ho : ordLogPart (probitUnits c P) (c • F) y.ord = ordLogPart P F y.ord := by
    cases y.ord with
    | none => rfl
    | some l => simp only [ordLogPart, ordLikelihood, ordLikEach_times hc]
  simp only [logLikTraining, hp, ha, ho]

end ordUnits

/-! ### Answers turned round -/

theorem meanLink_turned {eps : ℝ} (h0 : Phi (-30) ≤ eps) (h1 : eps ≤ 1 / 2) (sigma f : ℝ) :
    meanLink sigma eps (-f) = 1 - meanLink sigma eps f := by
  have key : ∀ z, npClip eps (1 - eps) (stdNormCdf z) = npClip eps (1 - eps) (Phi z) := by
    intro z
    simp only [stdNormCdf]
    rcases le_total z (-30) with h | h
    · have e : npClip (-30) 100 z = -30 := by
        simp only [npClip, max_eq_right h]
        norm_num
      rw [e]
      have h2 : Phi z ≤ Phi (-30) := Phi_strictMono.monotone h
      simp only [npClip, max_eq_right h0, max_eq_right (h2.trans h0)]
    · rcases le_total z 100 with h' | h'
      · simp only [npClip, max_eq_left h, min_eq_left h']
      · have e : npClip (-30) 100 z = 100 := by
          simp only [npClip, max_eq_left h, min_eq_right h']
        rw [e]
        have h2 : Phi 100 ≤ Phi z := Phi_strictMono.monotone h'
        have h3 : 1 - eps ≤ Phi 100 := by
          have h4 : Phi 30 ≤ Phi 100 := Phi_strictMono.monotone (by norm_num)
          have h5 := Phi_neg 30
          linarith
        simp only [npClip]
        rw [min_eq_right (h3.trans (le_max_left _ _)), min_eq_right ((h3.trans h2).trans (le_max_left _ _))]
  have e : -f * isqrt2sig sigma = -(f * isqrt2sig sigma) := by ring
  simp only [meanLink, key, e, Phi_neg]
  set p := Phi (f * isqrt2sig sigma)
  simp only [npClip]
  rcases le_total p eps with h | h
  · have m1 : max p eps = eps := max_eq_right h
    have m2 : max (1 - p) eps = 1 - p := max_eq_left (by linarith)
    have m3 : min eps (1 - eps) = eps := min_eq_left (by linarith)
    have m4 : min (1 - p) (1 - eps) = 1 - eps := min_eq_right (by linarith)
    rw [m1, m2, m3, m4]
  · have m1 : max p eps = p := max_eq_left h
    rw [m1]
    rcases le_total p (1 - eps) with h' | h'
    · have m2 : max (1 - p) eps = 1 - p := max_eq_left (by linarith)
      have m3 : min p (1 - eps) = p := min_eq_left h'
      have m4 : min (1 - p) (1 - eps) = 1 - p := min_eq_left (by linarith)
      rw [m2, m3, m4]
    · have m2 : max (1 - p) eps = eps := max_eq_right (by linarith)
      have m3 : min p (1 - eps) = 1 - eps := min_eq_right h'
      have m4 : min eps (1 - eps) = eps := min_eq_left (by linarith)
      rw [m2, m3, m4]
      ring

theorem betaPDFReal_turned (a b y : ℝ) : ProbabilityTheory.betaPDFReal b a (1 - y) = ProbabilityTheory.betaPDFReal a b y := by
  simp only [ProbabilityTheory.betaPDFReal, ProbabilityTheory.beta]
  by_cases h : 0 < y ∧ y < 1
  · rw [if_pos h, if_pos ⟨by linarith, by linarith⟩, add_comm b a, mul_comm (Real.Gamma b)]
    rw [show 1 - (1 - y) = y by ring]
    ring
  · rw [if_neg h, if_neg fun h2 => h ⟨by linarith, by linarith⟩]

section absTurned

variable {eps : ℝ} (h0 : Phi (-30) ≤ eps) (h1 : eps ≤ 1 / 2) (s v : ℝ)

include h0 h1

theorem alphaBeta_turned (f : ℝ) : alphaBeta s v eps (-f) = ((alphaBeta s v eps f).2, (alphaBeta s v eps f).1) := by
  simp only [alphaBeta, meanLink_turned h0 h1]
  refine Prod.ext ?_ ?_ <;> simp only <;> ring

theorem absPy_turned (r f : ℝ) : absPy s v eps (1 - r) (-f) = absPy s v eps r f := by
  simp only [absPy, alphaBeta_turned h0 h1, betaPDFReal_turned]

theorem absDpy_turned (r f : ℝ) : absDpy s v eps (1 - r) (-f) = (-1)⁻¹ * absDpy s v eps r f := by
  have e : -f * isqrt2sig s = -(f * isqrt2sig s) := by ring
  simp only [absDpy, alphaBeta_turned h0 h1, absTmp, e, stdNormPdf, neg_sq]
  rw [show 1 - (1 - r) = r by ring]
  ring

theorem absWdiag_turned (r f : ℝ) : absWdiag s v eps (1 - r) (-f) = absWdiag s v eps r f := by
  have e : -f * isqrt2sig s = -(f * isqrt2sig s) := by ring
  simp only [absWdiag, alphaBeta_turned h0 h1, absTmp, e, stdNormPdf, neg_sq]
  rw [show 1 - (1 - r) = r by ring]
  ring

theorem absDerivatives_turned (y : List (ℝ × Fin n)) (F : Fin n → ℝ) :
    absDerivatives s v eps (y.map fun p => (1 - p.1, p.2)) ((-1 : ℝ) • F) =
      (fun i j => ((-1 : ℝ) ^ 2)⁻¹ * (absDerivatives s v eps y F).1 i j, (-1 : ℝ)⁻¹ • (absDerivatives s v eps y F).2.1,
        (absDerivatives s v eps y F).2.2) := by
  have hF : ∀ i, ((-1 : ℝ) • F) i = -F i := fun i => by simp
  refine Prod.ext ?_ (Prod.ext ?_ ?_)
  · funext i j
    simp only [absDerivatives, assignDiag, List.map_map, Function.comp_def, hF, absWdiag_turned h0 h1]
    norm_num
  · have := assignVec_times (-1 : ℝ)⁻¹ (y.map fun p => (p.2, absDpy s v eps p.1 (F p.2)))
    simp only [List.map_map, Function.comp_def] at this
    simp only [absDerivatives, List.map_map, Function.comp_def, hF, absDpy_turned h0 h1, this]
  · simp only [absDerivatives, List.map_map, Function.comp_def, hF, absPy_turned h0 h1]

theorem absLogLik_turned (y : List (ℝ × Fin n)) (F : Fin n → ℝ) :
    absLogLik s v eps (y.map fun p => (1 - p.1, p.2)) ((-1 : ℝ) • F) = absLogLik s v eps y F := by
  have hF : ∀ i, ((-1 : ℝ) • F) i = -F i := fun i => by simp
  simp only [absLogLik, List.map_map, Function.comp_def, hF, absPy_turned h0 h1]

end absTurned

section gpTurned

variable {P : ProbitSet} {abs : Option (List (ℝ × Fin n))}
  (h : abs ≠ none → Phi (-30) ≤ P.absEps ∧ P.absEps ≤ 1 / 2) (pairs : Option (List (IPair n)))

include h

theorem gpDerivatives_turned (F : Fin n → ℝ) :
    gpDerivatives P (labelsTurned pairs abs) ((-1 : ℝ) • F) =
      (gpDerivatives P ⟨pairs, none, abs⟩ F).map (Option.map (derivsTimes (-1))) := by
  have hp : pairPart P.sigma ((-1 : ℝ) • F) (labelsTurned pairs abs).pairs = derivsTimes (-1) (pairPart P.sigma F pairs) := by
    cases pairs with
    | none => simp [pairPart, labelsTurned, derivsTimes]
    | some l => exact prefDerivatives_turned P.sigma l F
  have ha : absPart P ((-1 : ℝ) • F) (labelsTurned pairs abs).abs = derivsTimes (-1) (absPart P F abs) := by
    cases abs with
    | none => simp [absPart, labelsTurned, derivsTimes]
    | some l =>
      obtain ⟨h0, h1⟩ := h (by simp)
      have := absDerivatives_turned h0 h1 P.absSigma P.absV l F
      simp only [absPart, labelsTurned, Option.map_some, this]
      rfl
  have ho : (labelsTurned pairs abs).ord = none := rfl
  simp only [gpDerivatives, hp, ha, ho, ordPart, Except.map, Option.map_some, derivsTimes, smul_add, smul_zero]

theorem logLikTraining_turned (F : Fin n → ℝ) :
    logLikTraining P (labelsTurned pairs abs) ((-1 : ℝ) • F) = logLikTraining P ⟨pairs, none, abs⟩ F := by
  have hp : pairLogPart P ((-1 : ℝ) • F) (labelsTurned pairs abs).pairs = pairLogPart P F pairs := by
    cases pairs with
    | none => rfl
    | some l => exact congrArg (·.2.2) (prefDerivatives_turned P.sigma l F)
  have ha : absLogPart P ((-1 : ℝ) • F) (labelsTurned pairs abs).abs = absLogPart P F abs := by
    cases abs with
    | none => rfl
    | some l =>
      obtain ⟨h0, h1⟩ := h (by simp)
      exact absLogLik_turned h0 h1 P.absSigma P.absV l F
  have ho : (labelsTurned pairs abs).ord = none := rfl
  simp only [logLikTraining, hp, ha, ho, ordLogPart]

end gpTurned

end Lop
