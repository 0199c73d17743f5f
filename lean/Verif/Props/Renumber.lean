import Verif.Proofs.Renumber
import Verif.Props.Cov
import Verif.Proofs.Laplace

/-! # C116: a fit of PreferenceGP depends on what was said, not on how it is written down -/

namespace Lop.Props

open Lop.Spec Matrix

variable {n d : Nat}

/-- C116: if the points are numbered differently, with the labels, the start values and the covariance matrix going along,
`find_mode` does the same: it raises the same exception or ends after the same number of updates with the same value, gradient
entry and curvature entry for every point. All label types, with and without normalisation. -/
theorem C116_fit (σ : Equiv.Perm (Fin (n + 1))) (o : ModeOpts) (P : ProbitSet) (y : TrainLabels (n + 1))
    (K : Matrix (Fin (n + 1)) (Fin (n + 1)) ℝ)
    {invert : Matrix (Fin (n + 1)) (Fin (n + 1)) ℝ → Option (Matrix (Fin (n + 1)) (Fin (n + 1)) ℝ)}
    (hinv : InvertsRenumbered invert) (F0 : Fin (n + 1) → ℝ) :
    findMode o P (labelsTo σ y) (matrixTo σ K) invert (valuesTo σ F0) = (findMode o P y K invert F0).map (fitTo σ) := by
  have hgo : (open Classical in decide (matrixTo σ K).PosDef) = (open Classical in decide K.PosDef) := by
    exact decide_eq_decide.2 (matrixTo_posDef σ K)
  have h := findModeLoop_to (Option.map (valuesTo σ)) (findModeStep_to σ o P y K hinv) o.maxloops (o.maxloops + 2) (some F0)
    (open Classical in decide K.PosDef) 0
  unfold findMode
  rw [hgo]
  simp only [Option.map_some] at h ⊢
  rw [h]
  cases findModeLoop (findModeStep o P y K invert) o.maxloops (o.maxloops + 2) (some F0)
      (open Classical in decide K.PosDef) 0 with
  | none => rfl
  | some r =>
    cases r with
    | error e => rfl
    | ok r =>
      obtain ⟨F, k⟩ := r
      cases F with
      | none => rfl
      | some F =>
        simp only [Option.map_some, Except.map, bind, Except.bind, Prod.map, id, gpDerivatives_to]
        cases gpDerivatives P y F <;> rfl

/-- C116: with a kernel without noise the predictions are the same, too, whatever the number of points. -/
theorem C116_predict (k : KExpr ℝ (Pt d)) (hq : AllLeaves NoNoise k) {t : Nat} (σ : Equiv.Perm (Fin t)) {Y : Fin t → Pt d}
    {K : Matrix (Fin t) (Fin t) ℝ} (ht : 0 < t) (hK : kcov k _ _ Y Y = .ok K) (W : Matrix (Fin t) (Fin t) ℝ) (F : Fin t → ℝ)
    {invert : Matrix (Fin t) (Fin t) ℝ → Option (Matrix (Fin t) (Fin t) ℝ)} (hinv : InvertsRenumbered invert)
    (X : Fin n → Pt d) (hn : 0 < n) :
    kcov k _ _ (valuesTo σ Y) (valuesTo σ Y) = .ok (matrixTo σ K) ∧
    prefGpPredict (kcov k) (valuesTo σ Y) (matrixTo σ K) (matrixTo σ W) (valuesTo σ F) invert X =
      prefGpPredict (kcov k) Y K W F invert X := by
  obtain ⟨g, hg⟩ := cov_pointwise k hq
  obtain ⟨K', hK'⟩ := cov_returns k (valuesTo σ Y) (valuesTo σ Y) ht
  have eK : K' = matrixTo σ K := by
    ext i j
    rw [hg _ _ _ hK']
    exact (hg _ _ _ hK _ _).symm
  refine ⟨by rw [← eK]; exact hK', ?_⟩
  obtain ⟨Ks, hKs⟩ := cov_returns k X Y hn
  obtain ⟨Ks', hKs'⟩ := cov_returns k X (valuesTo σ Y) hn
  have eKs : Ks' = Ks.submatrix id σ.symm := by
    ext i j
    rw [hg _ _ _ hKs', submatrix_apply, hg _ _ _ hKs]
    rfl
  exact predict_to σ (cov := kcov k) hKs hKs' eKs hinv

/-- C116: with kernels with noise (but no zeroed ones) it is the same, unless there are exactly as many test points as training
points. -/
theorem C116_predict_noisy (k : KExpr ℝ (Pt d)) (hnz : AllLeaves NotZeroed k) {t : Nat} (σ : Equiv.Perm (Fin t))
    {Y : Fin t → Pt d} {K : Matrix (Fin t) (Fin t) ℝ} (ht : 0 < t) (hK : kcov k _ _ Y Y = .ok K)
    (W : Matrix (Fin t) (Fin t) ℝ) (F : Fin t → ℝ)
    {invert : Matrix (Fin t) (Fin t) ℝ → Option (Matrix (Fin t) (Fin t) ℝ)} (hinv : InvertsRenumbered invert)
    (X : Fin n → Pt d) (hn : 0 < n) :
    kcov k _ _ (valuesTo σ Y) (valuesTo σ Y) = .ok (matrixTo σ K) ∧
    (n ≠ t → prefGpPredict (kcov k) (valuesTo σ Y) (matrixTo σ K) (matrixTo σ W) (valuesTo σ F) invert X =
      prefGpPredict (kcov k) Y K W F invert X) := by
  have spot : ∀ (Z : Fin t → Pt d) (i j : Fin t), NoiseSpot Z Z i j ↔ i = j := fun Z i j =>
    ⟨fun h => Fin.ext h.2.2, fun h => ⟨rfl, ⟨ht, ht, rfl⟩, congrArg Fin.val h⟩⟩
  obtain ⟨K', hK', h'⟩ := C32_exact k hnz (valuesTo σ Y) (valuesTo σ Y) ht
  obtain ⟨K2, hK2, h2⟩ := C32_exact k hnz Y Y ht
  have e2 : kcov k _ _ Y Y = .ok K2 := hK2
  rw [hK] at e2
  obtain rfl := Except.ok.inj e2
  have eK : K' = matrixTo σ K := by
    ext i j
    by_cases hij : i = j
    · subst hij
      rw [(h' i i).1 ((spot _ _ _).2 rfl)]
      exact ((h2 _ _).1 ((spot _ _ _).2 rfl)).symm
    · rw [(h' i j).2 fun h => hij ((spot _ _ _).1 h)]
      exact ((h2 _ _).2 fun h => hij (σ.symm.injective ((spot _ _ _).1 h))).symm
  refine ⟨by rw [← eK]; exact hK', fun hnt => ?_⟩
  obtain ⟨Ks, hKs, h3⟩ := C32_exact k hnz X Y hn
  obtain ⟨Ks', hKs', h4⟩ := C32_exact k hnz X (valuesTo σ Y) hn
  have eKs : Ks' = Ks.submatrix id σ.symm := by
    ext i j
    rw [(h4 i j).2 fun h => hnt h.1, submatrix_apply, (h3 _ _).2 fun h => hnt h.1]
    rfl
  exact predict_to σ (cov := kcov k) hKs hKs' eKs hinv

/-- With as many test points as training points and a kernel with noise it is false: after two training points 0 and 1
(numbered either way) the mean predicted at 0, when 0 and 1 are asked for, depends on the numbering, whatever the stored
values, unless the weight of the point 0 in the prediction vanishes. -/
theorem C116_noisy_false (F : Fin 2 → ℝ) (W : Matrix (Fin 2) (Fin 2) ℝ) {K : Matrix (Fin 2) (Fin 2) ℝ}
    (_hK : kcov (.leaf (.rbf 1 1 (1 / 100))) _ _ (![![0], ![1]] : Fin 2 → Pt 1) ![![0], ![1]] = .ok K)
    (hF : (K⁻¹ *ᵥ F) 0 ≠ 0) {invert : Matrix (Fin 2) (Fin 2) ℝ → Option (Matrix (Fin 2) (Fin 2) ℝ)} {p p' : GPPred 2}
    (h : prefGpPredict (kcov (.leaf (.rbf 1 1 (1 / 100)))) (![![0], ![1]] : Fin 2 → Pt 1) K W F invert ![![0], ![1]] = .ok p)
    (h' : prefGpPredict (kcov (.leaf (.rbf 1 1 (1 / 100)))) (valuesTo (Equiv.swap 0 1) (![![0], ![1]] : Fin 2 → Pt 1))
      (matrixTo (Equiv.swap 0 1) K) (matrixTo (Equiv.swap 0 1) W) (valuesTo (Equiv.swap 0 1) F) invert ![![0], ![1]] =
      .ok p') :
    p.mu 0 ≠ p'.mu 0 := by
  set k : KExpr ℝ (Pt 1) := .leaf (.rbf 1 1 (1 / 100)) with hk
  set Y : Fin 2 → Pt 1 := ![![0], ![1]] with hY
  set σ : Equiv.Perm (Fin 2) := Equiv.swap 0 1 with hσ
  have mu : ∀ (Z : Fin 2 → Pt 1) K W F p Ks, prefGpPredict (kcov k) Z K W F invert Y = .ok p → kcov k 2 2 Y Z = .ok Ks →
      p.mu = Ks *ᵥ (K⁻¹ *ᵥ F) := by
    intro Z K W F p Ks h hKs
    simp only [prefGpPredict, hKs, bind, Except.bind] at h
    cases hXX : kcov k 2 2 Y Y with
    | error e => simp [hXX] at h
    | ok Kss =>
      simp only [hXX, laplacePredict] at h
      split at h
      · split at h
        · cases h
        · exact (Except.ok.inj h) ▸ rfl
      · cases h
  have hnz : AllLeaves NotZeroed k := by simp [hk, AllLeaves, NotZeroed]
  obtain ⟨Ks, hKs, h3⟩ := C32_exact k hnz Y Y (by norm_num)
  obtain ⟨Ks', hKs', h4⟩ := C32_exact k hnz Y (valuesTo σ Y) (by norm_num)
  have hno : ∀ i j, ¬ NoiseSpot Y (valuesTo σ Y) i j := by
    rintro i j ⟨-, ⟨_, _, h0⟩, -⟩
    have := congrFun h0 0
    simp [hY, valuesTo, hσ] at this
  rw [mu Y K W F p Ks h hKs, mu _ _ _ _ p' Ks' h' hKs', matrixTo_inv, matrixTo_mulVec]
  set a := K⁻¹ *ᵥ F with ha
  have e1 : (Ks *ᵥ a) 0 = Ks 0 0 * a 0 + Ks 0 1 * a 1 := by simp [mulVec, dotProduct, Fin.sum_univ_two]
  have e2 : (Ks' *ᵥ valuesTo σ a) 0 = Ks' 0 0 * a 1 + Ks' 0 1 * a 0 := by
    simp [mulVec, dotProduct, Fin.sum_univ_two, valuesTo, hσ]
  rw [e1, e2, (h3 0 0).1 ⟨rfl, ⟨by norm_num, by norm_num, rfl⟩, rfl⟩,
    (h3 0 1).2 (fun h => by have := h.2.2; simp at this), (h4 0 0).2 (hno _ _), (h4 0 1).2 (hno _ _)]
  simp only [hk, evalNoisy, noiseOf, KExpr.eval]
  have e3 : valuesTo σ Y 0 = Y 1 := by simp [valuesTo, hσ]
  have e4 : valuesTo σ Y 1 = Y 0 := by simp [valuesTo, hσ]
  rw [e3, e4]
  intro hh
  apply hF
  linarith

/-- C116: how the answers are listed, and which point of a pair is named first, makes no difference either. -/
theorem C116_answers {y y' : List (IPair (n + 1))} (h : SameAnswers y y') (o : ModeOpts) (P : ProbitSet)
    (ord : Option (List (Int × Fin (n + 1)))) (abs : Option (List (ℝ × Fin (n + 1))))
    (K : Matrix (Fin (n + 1)) (Fin (n + 1)) ℝ)
    (invert : Matrix (Fin (n + 1)) (Fin (n + 1)) ℝ → Option (Matrix (Fin (n + 1)) (Fin (n + 1)) ℝ))
    (F0 : Fin (n + 1) → ℝ) :
    findMode o P ⟨some y', ord, abs⟩ K invert F0 = findMode o P ⟨some y, ord, abs⟩ K invert F0 := by
  have e : ∀ F, prefDerivatives P.sigma y' F = prefDerivatives P.sigma y F := fun F => sameAnswers_derivs h P.sigma F
  refine findMode_congr (fun F => ?_) (fun F => ?_)
  · simp only [gpDerivatives, pairPart, e]
  · have e2 : prefLogLik P.sigma y' F = prefLogLik P.sigma y F := congrArg (·.2.2) (e F)
    simp only [logLikTraining, pairLogPart, e2]

/-- C116: the order of ratings in (0,1) makes no difference as long as no point is rated twice. -/
theorem C116_ratings {y y' : List (ℝ × Fin (n + 1))} (h : y.Perm y') (hnd : (y.map (·.2)).Nodup) (o : ModeOpts) (P : ProbitSet)
    (pairs : Option (List (IPair (n + 1)))) (ord : Option (List (Int × Fin (n + 1))))
    (K : Matrix (Fin (n + 1)) (Fin (n + 1)) ℝ)
    (invert : Matrix (Fin (n + 1)) (Fin (n + 1)) ℝ → Option (Matrix (Fin (n + 1)) (Fin (n + 1)) ℝ))
    (F0 : Fin (n + 1) → ℝ) :
    findMode o P ⟨pairs, ord, some y'⟩ K invert F0 = findMode o P ⟨pairs, ord, some y⟩ K invert F0 := by
  have e : ∀ g : ℝ × Fin (n + 1) → ℝ, assignVec (y'.map fun p => (p.2, g p)) = assignVec (y.map fun p => (p.2, g p)) :=
    fun g => (assignVec_perm (h.map _) (by rw [List.map_map]; exact hnd)).symm
  refine findMode_congr (fun F => ?_) (fun F => ?_)
  · simp only [gpDerivatives, absPart, absDerivatives, assignDiag, e fun p => absWdiag P.absSigma P.absV P.absEps p.1 (F p.2),
      e fun p => absDpy P.absSigma P.absV P.absEps p.1 (F p.2),
      (h.map fun p => absPy P.absSigma P.absV P.absEps p.1 (F p.2)).sum_eq]
  · simp only [logLikTraining, absLogPart, absLogLik, e fun p => absPy P.absSigma P.absV P.absEps p.1 (F p.2)]

/-- C116 for `PreferenceLinear`: the numbering of the points makes no difference to the fitted weights; nor does, when there
are only comparisons, their order, which point is named first, and a vector added to all points. -/
theorem C116_linear (σ : Equiv.Perm (Fin n)) (P : ProbitSet) (X : Matrix (Fin n) (Fin d) ℝ) (w0 : Fin d → ℝ) :
    (∀ y, linFit P (labelsTo σ y) (Matrix.of fun i => X (σ.symm i)) w0 = linFit P y X w0) ∧
    (∀ y y', SameAnswers y y' → linFit P ⟨some y', none, none⟩ X w0 = linFit P ⟨some y, none, none⟩ X w0) ∧
    ∀ y (c : Fin d → ℝ), linFit P ⟨some y, none, none⟩ (Matrix.of fun i j => X i j + c j) w0 =
      linFit P ⟨some y, none, none⟩ X w0 := by
  refine ⟨fun y => ?_, fun y y' h => ?_, fun y c => ?_⟩
  · refine linFit_congr (X' := X.submatrix σ.symm id) (fun w => linDerivatives_to σ P y X w) (fun w => ?_) w0
    simp only [linLoss, linValues_to, logLikTraining_to]
  · have e : ∀ F, prefDerivatives P.sigma y' F = prefDerivatives P.sigma y F := fun F => sameAnswers_derivs h P.sigma F
    refine linFit_congr (fun w => ?_) (fun w => ?_) w0
    · simp only [linDerivatives, gpDerivatives, pairPart, e]
    · have e2 : ∀ F, prefLogLik P.sigma y' F = prefLogLik P.sigma y F := fun F => congrArg (·.2.2) (e F)
      simp only [linLoss, logLikTraining, pairLogPart, e2]
  · exact linFit_congr (fun w => linDerivatives_shift P _ X c w) (fun w => linLoss_shift P _ X c w) w0

/-- `np.linalg.inv` is an inversion routine as supposed above. -/
theorem C116_inv : InvertsRenumbered (npInv (n := n)) := npInv_renumbered

/-- The hypotheses of `C116_answers`: a list of answers in another order with one pair the other way round. -/
example : SameAnswers [(⟨1, 0, 1⟩ : IPair 3), ⟨-1, 1, 2⟩] [⟨1, 2, 1⟩, ⟨1, 0, 1⟩] :=
  (SameAnswers.perm (List.Perm.swap _ _ [])).trans (SameAnswers.flip ⟨-1, 1, 2⟩ [⟨1, 0, 1⟩])

/-- The hypotheses of `C116_ratings`. -/
example : ([((3 : ℝ) / 10, (0 : Fin 3)), (1 / 2, 2)].Perm [(1 / 2, 2), (3 / 10, 0)]) ∧
    (([((3 : ℝ) / 10, (0 : Fin 3)), (1 / 2, 2)]).map (·.2)).Nodup := by
  refine ⟨List.Perm.swap _ _ _, by simp⟩

/-- The hypotheses of `C116_predict`. -/
example : ∃ K, kcov (.leaf (.rbf 1 1 0)) _ _ (![![0], ![1]] : Fin 2 → Pt 1) ![![0], ![1]] = .ok K :=
  cov_returns _ _ _ (by norm_num)

/-- The hypotheses of `C116_noisy_false`. -/
example : ∃ (F : Fin 2 → ℝ) (K : Matrix (Fin 2) (Fin 2) ℝ) (p p' : GPPred 2),
    kcov (.leaf (.rbf 1 1 (1 / 100))) _ _ (![![0], ![1]] : Fin 2 → Pt 1) ![![0], ![1]] = .ok K ∧
    (K⁻¹ *ᵥ F) 0 ≠ 0 ∧
    prefGpPredict (kcov (.leaf (.rbf 1 1 (1 / 100)))) (![![0], ![1]] : Fin 2 → Pt 1) K 0 F npInv ![![0], ![1]] = .ok p ∧
    prefGpPredict (kcov (.leaf (.rbf 1 1 (1 / 100)))) (valuesTo (Equiv.swap 0 1) (![![0], ![1]] : Fin 2 → Pt 1))
      (matrixTo (Equiv.swap 0 1) K) (matrixTo (Equiv.swap 0 1) 0) (valuesTo (Equiv.swap 0 1) F) npInv ![![0], ![1]] =
      .ok p' := by
  obtain ⟨K, hK, hpd, -⟩ := C31_definite_partial (.leaf (.rbf 1 1 (1 / 100))) (![![0], ![1]] : Fin 2 → Pt 1) (by norm_num)
    (by simp [AllLeaves, LeafOK]) (by simp [AllLeaves, NotZeroed]) (.rbf (by norm_num))
  have hpd' : (matrixTo (Equiv.swap 0 1) K).PosDef := hpd.submatrix (Equiv.injective _)
  have h0 : matrixTo (Equiv.swap (0 : Fin 2) 1) (0 : Matrix (Fin 2) (Fin 2) ℝ) = 0 := rfl
  have hi : npInv (1 : Matrix (Fin 2) (Fin 2) ℝ) = some 1 := by simp [npInv]
  have hu : IsUnit K.det := hpd.isUnit.map Matrix.detMonoidHom
  have ok : ∀ (Z : Fin 2 → Pt 1) (K : Matrix (Fin 2) (Fin 2) ℝ) F, K.PosDef →
      ∃ r, prefGpPredict (kcov (.leaf (.rbf 1 1 (1 / 100)))) Z K 0 F npInv ![![0], ![1]] = .ok r := by
    intro Z K F hK
    unfold prefGpPredict laplacePredict
    simp only [kcov, KExpr.cov, KLeaf.cov, rbfCov, hK, Matrix.zero_mul, add_zero, hi, bind, Except.bind, if_true]
    norm_num
  obtain ⟨p, hp⟩ := ok ![![0], ![1]] K (K *ᵥ ![-1, 1]) hpd
  obtain ⟨p', hp'⟩ := ok (valuesTo (Equiv.swap 0 1) ![![0], ![1]]) _ (valuesTo (Equiv.swap 0 1) (K *ᵥ ![-1, 1])) hpd'
  refine ⟨K *ᵥ ![-1, 1], K, p, p', hK, ?_, hp, by rw [h0]; exact hp'⟩
  rw [Matrix.mulVec_mulVec, Matrix.nonsing_inv_mul _ hu]
  simp

end Lop.Props
