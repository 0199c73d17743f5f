import Verif.Proofs.Unasked
import Verif.Props.Cov
import Verif.Props.FindMode
import Verif.Props.ModeLearned
import Verif.Proofs.AgainOther
import Verif.Props.Again

/-! # C117: training points nobody was asked about do not influence the model -/

namespace Lop.Props

open Lop.Spec Matrix

variable {n t d m : Nat}

/-- C117: the mode with further points is the mode without them, and at the further points the guess from it. -/
theorem C117_mode (e : Fin t ↪ Fin n) {sigma : ℝ} (y : List (IPair t)) {K : Matrix (Fin n) (Fin n) ℝ} (hK : K.PosDef)
    (F : Fin n → ℝ) :
    IsMode sigma (y.map (pairAlong e)) K F ↔
      ∃ f, IsMode sigma y (K.submatrix e e) f ∧ F = guessRest e K f ∧ ∀ j, F (e j) = f j := by
  rw [isMode_along e hK]
  constructor
  · rintro ⟨h1, h2⟩
    exact ⟨_, h1, h2, fun _ => rfl⟩
  · rintro ⟨f, h1, h2, h3⟩
    have : (fun j => F (e j)) = f := funext h3
    rw [this]
    exact ⟨h1, h2⟩

/-- C117: one update of `find_mode`, line search included, commutes with leaving the further points out, for labels of all
types, if the values at the further points are the guess and the Hessian is not singular. -/
theorem C117_update (e : Fin t ↪ Fin n) (P : ProbitSet) (y : TrainLabels t) {K : Matrix (Fin n) (Fin n) ℝ} (hK : K.PosDef)
    (f : Fin t → ℝ) (hH : ∀ r, gpDerivatives P y f = .ok (some r) → IsUnit (-r.1 - (K.submatrix e e)⁻¹).det) :
    findModeUpdate P (labelsAlong e y) K npInv (guessRest e K f) =
      (findModeUpdate P y (K.submatrix e e) npInv f).map fun r => r.map (guessRest e K) := by
  refine findModeUpdate_along e hK P y f fun r hr => ?_
  have hu₀ : IsUnit (K.submatrix e e).det := (Matrix.isUnit_iff_isUnit_det _).1 (hK.submatrix e.injective).isUnit
  have h : 1 + r.1 * K.submatrix e e = -((-r.1 - (K.submatrix e e)⁻¹) * K.submatrix e e) := by
    rw [Matrix.sub_mul, nonsing_inv_mul _ hu₀, Matrix.neg_mul]
    abel
  rw [h, det_neg, det_mul]
  exact (IsUnit.pow _ isUnit_one.neg).mul ((hH r hr).mul hu₀)

/-- C117, comparisons: their Hessian is never singular in the range of the ratio of density and distribution function. -/
theorem C117_update_pairs (e : Fin t ↪ Fin n) (P : ProbitSet) (hs : P.sigma ≠ 0) (y : List (IPair t))
    {K : Matrix (Fin n) (Fin n) ℝ} (hK : K.PosDef) (f : Fin t → ℝ) (hr : PairsInRange P.sigma y f) :
    findModeUpdate P (onlyPairs (y.map (pairAlong e))) K npInv (guessRest e K f) =
      (findModeUpdate P (onlyPairs y) (K.submatrix e e) npInv f).map fun r => r.map (guessRest e K) := by
  have hK₀ : (K.submatrix e e).PosDef := hK.submatrix e.injective
  have h : labelsAlong e (onlyPairs y) = onlyPairs (y.map (pairAlong e)) := rfl
  rw [← h]
  refine findModeUpdate_along e hK P (onlyPairs y) f fun r hd => ?_
  simp only [gpDerivatives, onlyPairs, ordPart, absPart, pairPart, prefDerivatives, Except.map, Option.map_some, add_zero,
    Except.ok.injEq, Option.some.injEq] at hd
  rw [← hd]
  exact (laplace_reduction hK₀ (hK₀.inv.add_posSemidef (C37_W_psd P.sigma hs y f hr).1)).1

/-- C117: the prediction of a model with further points, for a kernel without noise. -/
theorem C117_predict (k : KExpr ℝ (Pt d)) (hq : AllLeaves NoNoise k) (e : Fin t ↪ Fin n) (ht : 0 < t) {Y : Fin n → Pt d}
    {K : Matrix (Fin n) (Fin n) ℝ} (hY : kcov k _ _ Y Y = .ok K) (hK : K.PosDef) (W : Matrix (Fin t) (Fin t) ℝ)
    (f : Fin t → ℝ) (X : Fin m → Pt d) (hm : 0 < m) :
    kcov k _ _ (fun j => Y (e j)) (fun j => Y (e j)) = .ok (K.submatrix e e) ∧
    prefGpPredict (kcov k) Y K (spreadMat e W) (guessRest e K f) npInv X =
      prefGpPredict (kcov k) (fun j => Y (e j)) (K.submatrix e e) W f npInv X := by
  obtain ⟨g, hg⟩ := cov_pointwise k hq
  obtain ⟨K', hK'⟩ := cov_returns k (fun j => Y (e j)) (fun j => Y (e j)) ht
  have eK : K' = K.submatrix e e := by
    ext i j
    rw [hg _ _ _ hK']
    exact (hg _ _ _ hY _ _).symm
  obtain ⟨Ks, hKs⟩ := cov_returns k X Y hm
  obtain ⟨Ks', hKs'⟩ := cov_returns k X (fun j => Y (e j)) hm
  have eKs : Ks' = Ks.submatrix id e := by
    ext i j
    rw [hg _ _ _ hKs', submatrix_apply, hg _ _ _ hKs]
    rfl
  exact ⟨by rw [← eK]; exact hK', predict_along e hK W f hKs (by rw [← eKs]; exact hKs')⟩

/-- C117: the same for kernels with noise (but no zeroed ones), unless there are exactly as many test points as training
points, with or without the further ones. -/
theorem C117_predict_noisy (k : KExpr ℝ (Pt d)) (hnz : AllLeaves NotZeroed k) (e : Fin t ↪ Fin n) (ht : 0 < t)
    {Y : Fin n → Pt d} {K : Matrix (Fin n) (Fin n) ℝ} (hY : kcov k _ _ Y Y = .ok K) (hK : K.PosDef)
    (W : Matrix (Fin t) (Fin t) ℝ) (f : Fin t → ℝ) (X : Fin m → Pt d) (hm : 0 < m) :
    kcov k _ _ (fun j => Y (e j)) (fun j => Y (e j)) = .ok (K.submatrix e e) ∧
    (m ≠ n → m ≠ t → prefGpPredict (kcov k) Y K (spreadMat e W) (guessRest e K f) npInv X =
      prefGpPredict (kcov k) (fun j => Y (e j)) (K.submatrix e e) W f npInv X) := by
  have hn : 0 < n := by
    have := (e ⟨0, ht⟩).isLt
    omega
  have spot : ∀ {s : Nat} (Z : Fin s → Pt d) (_ : 0 < s) (i j : Fin s), NoiseSpot Z Z i j ↔ i = j := fun Z hs i j =>
    ⟨fun h => Fin.ext h.2.2, fun h => ⟨rfl, ⟨hs, hs, rfl⟩, congrArg Fin.val h⟩⟩
  obtain ⟨K', hK', h'⟩ := C32_exact k hnz (fun j => Y (e j)) (fun j => Y (e j)) ht
  obtain ⟨K2, hK2, h2⟩ := C32_exact k hnz Y Y hn
  have e2 : kcov k _ _ Y Y = .ok K2 := hK2
  rw [hY] at e2
  obtain rfl := Except.ok.inj e2
  have eK : K' = K.submatrix e e := by
    ext i j
    by_cases hij : i = j
    · subst hij
      rw [(h' i i).1 ((spot _ ht _ _).2 rfl)]
      exact ((h2 _ _).1 ((spot _ hn _ _).2 rfl)).symm
    · rw [(h' i j).2 fun h => hij ((spot _ ht _ _).1 h)]
      exact ((h2 _ _).2 fun h => hij (e.injective ((spot _ hn _ _).1 h))).symm
  refine ⟨by rw [← eK]; exact hK', fun hmn hmt => ?_⟩
  obtain ⟨Ks, hKs, h3⟩ := C32_exact k hnz X Y hm
  obtain ⟨Ks', hKs', h4⟩ := C32_exact k hnz X (fun j => Y (e j)) hm
  have eKs : Ks' = Ks.submatrix id e := by
    ext i j
    rw [(h4 i j).2 fun h => hmt h.1, submatrix_apply, (h3 _ _).2 fun h => hmn h.1]
    rfl
  exact predict_along e hK W f hKs (by rw [← eKs]; exact hKs')

/-- C117: with the modes stored, the models with and without the points nobody was asked about predict the same. -/
theorem C117_asked (k : KExpr ℝ (Pt d)) (hnz : AllLeaves NotZeroed k) (e : Fin t ↪ Fin n) (ht : 0 < t) {Y : Fin n → Pt d}
    {K K₀ : Matrix _ _ ℝ} (hY : kcov k _ _ Y Y = .ok K) (hY₀ : kcov k _ _ (fun j => Y (e j)) (fun j => Y (e j)) = .ok K₀)
    (hK : K.PosDef) {sigma : ℝ} {y : List (IPair t)} {F : Fin n → ℝ} {f : Fin t → ℝ}
    (hF : IsMode sigma (y.map (pairAlong e)) K F) (hf : IsMode sigma y K₀ f) (X : Fin m → Pt d) (hm : 0 < m)
    (hmn : m ≠ n) (hmt : m ≠ t) :
    prefGpPredict (kcov k) Y K (prefW sigma (y.map (pairAlong e)) F) F npInv X =
      prefGpPredict (kcov k) (fun j => Y (e j)) K₀ (prefW sigma y f) f npInv X := by
  obtain ⟨h1, h2⟩ := C117_predict_noisy k hnz e ht hY hK (prefW sigma y f) f X hm
  rw [hY₀] at h1
  obtain rfl := Except.ok.inj h1
  rw [← h2 hmn hmt]
  obtain ⟨f', hf', hF', hat⟩ := (C117_mode e y hK F).1 hF
  obtain ⟨m', -, hu, -⟩ := C97_mode_unique sigma y (K := K.submatrix e e) (hK.submatrix e.injective)
  obtain rfl : f' = f := (hu _ hf').trans (hu _ hf).symm
  have hW : prefW sigma (y.map (pairAlong e)) F = spreadMat e (prefW sigma y f') := by
    have := congrArg (·.1) (prefDerivatives_along e sigma y F)
    rw [show (fun j => F (e j)) = f' from funext hat] at this
    exact this
  rw [hW, ← hF']

/-- With as many test points as training points and a kernel with noise it is false: after one comparison of the points 0 and
1, the mean predicted for the point 0 – asked for together with 1 and 2 – depends on whether the point 2 is stored, too. -/
theorem C117_noisy_false : ∃ (e : Fin 2 ↪ Fin 3) (y : List (IPair 2)) (Y : Fin 3 → Pt 1) (K : Matrix (Fin 3) (Fin 3) ℝ)
    (K₀ : Matrix (Fin 2) (Fin 2) ℝ) (F : Fin 3 → ℝ) (f : Fin 2 → ℝ) (r r' : GPPred 3),
    kcov (.leaf (.rbf 1 1 (1 / 100))) _ _ Y Y = .ok K ∧
    kcov (.leaf (.rbf 1 1 (1 / 100))) _ _ (fun j => Y (e j)) (fun j => Y (e j)) = .ok K₀ ∧ K.PosDef ∧
    IsMode 1 (y.map (pairAlong e)) K F ∧ IsMode 1 y K₀ f ∧
    prefGpPredict (kcov (.leaf (.rbf 1 1 (1 / 100)))) Y K (prefW 1 (y.map (pairAlong e)) F) F npInv Y = .ok r ∧
    prefGpPredict (kcov (.leaf (.rbf 1 1 (1 / 100)))) (fun j => Y (e j)) K₀ (prefW 1 y f) f npInv Y = .ok r' ∧
    r.mu 0 ≠ r'.mu 0 := by
  set k : KExpr ℝ (Pt 1) := .leaf (.rbf 1 1 (1 / 100)) with hk
  set Y : Fin 3 → Pt 1 := ![![0], ![1], ![2]] with hYdef
  set e : Fin 2 ↪ Fin 3 := Fin.castSuccEmb with he
  set y : List (IPair 2) := [⟨1, 0, 1⟩] with hy
  obtain ⟨K, hY, hK, -⟩ := C31_definite_partial k Y (by norm_num) (by simp [hk, AllLeaves, LeafOK])
    (by simp [hk, AllLeaves, NotZeroed]) (.rbf (by norm_num))
  have hnz : AllLeaves NotZeroed k := by simp [hk, AllLeaves, NotZeroed]
  have hY₀ := (C117_predict_noisy k hnz e (by norm_num) hY hK 0 0 Y (by norm_num)).1
  set K₀ := K.submatrix e e with hK₀d
  have hK₀ : K₀.PosDef := hK.submatrix e.injective
  obtain ⟨f, hf, -, -⟩ := C97_mode_unique 1 y hK₀
  have hF : IsMode 1 (y.map (pairAlong e)) K (guessRest e K f) :=
    (C117_mode e y hK _).2 ⟨f, hf, rfl, guessRest_at e hK f⟩
  set F := guessRest e K f with hFd
  have hKe : ∀ i j, K i j = Real.exp (-(Y i 0 - Y j 0) ^ 2 / 2) + if i = j then 1 / 100 else 0 := by
    intro i j
    have h := hY
    simp only [hk, KExpr.cov, KLeaf.cov, rbfCov] at h
    norm_num at h
    rw [← h]
    simp [rbfEval, sqDist, noiseTerm, Fin.ext_iff, sq]
  have hKs : kcov k _ _ Y (fun j => Y (e j)) = .ok (Matrix.of fun i j => Real.exp (-(Y i 0 - Y (e j) 0) ^ 2 / 2)) := by
    simp only [hk, kcov, KExpr.cov, KLeaf.cov, rbfCov]
    norm_num
    ext i j
    simp [rbfEval, sqDist, noiseTerm, sq]
  have hy1 : ∀ p ∈ y, AboutPair 0 1 p := by simp [hy, AboutPair]
  have hz := about_mode one_pos (u := 0) (v := 1) (by decide) hy1 (a := 1) (b := 0) (by simp [hy, answerSign]) hK₀ hf
  have hE : Real.exp (-1 / 2) < 1 := by rw [Real.exp_lt_one_iff]; norm_num
  have hE0 := Real.exp_pos (-1 / 2)
  have hV : K₀ 1 1 - K₀ 1 0 - (K₀ 0 1 - K₀ 0 0) = 2 + 2 / 100 - 2 * Real.exp (-1 / 2) := by
    simp only [hK₀d, submatrix_apply, hKe]
    simp [he, hYdef]
    ring
  rw [hV, mul_one, Real.sq_sqrt (by norm_num), one_mul, zero_mul, sub_zero] at hz
  set z := (f 1 - f 0) / Real.sqrt 2 with hzd
  have hz0 : 0 < z := by
    rw [hz]
    exact mul_pos (by linarith) (mratio_pos z)
  have hz1 : z < 100 := by
    have h1 := mratio_lt_one hz0.le
    have h2 := mratio_pos z
    rw [hz]
    nlinarith
  have hr : PairsInRange 1 y f := by
    intro p hp
    simp only [hy, List.mem_singleton] at hp
    have : pairZ 1 f p = z := by rw [hp, hzd]; simp [pairZ]
    rw [this]
    exact ⟨by linarith, hz1⟩
  have hat : (fun j => F (e j)) = f := funext (guessRest_at e hK f)
  have hr' : PairsInRange 1 (y.map (pairAlong e)) F := by
    intro p hp
    obtain ⟨q, hq, rfl⟩ := List.mem_map.1 hp
    have : pairZ 1 F (pairAlong e q) = pairZ 1 (fun j => F (e j)) q := rfl
    rw [this, hat]
    exact hr q hq
  have hok : ∀ {s : Nat} (Z : Fin s → Pt 1) (K W : Matrix (Fin s) (Fin s) ℝ) (m : Fin s → ℝ), K.PosDef → W.PosSemidef →
      ∃ r, prefGpPredict (kcov k) Z K W m npInv Y = .ok r := by
    intro s Z K W m hK hW
    have hu := (laplace_reduction hK (hK.inv.add_posSemidef hW)).1
    obtain ⟨Ks, h1⟩ := cov_returns k Y Z (by norm_num)
    obtain ⟨Kss, h2⟩ := cov_returns k Y Y (by norm_num)
    have h1' : kcov k _ _ Y Z = .ok Ks := h1
    have h2' : kcov k _ _ Y Y = .ok Kss := h2
    unfold prefGpPredict laplacePredict
    simp only [h1', h2', bind, Except.bind, if_pos hK, npInv, if_pos hu]
    exact ⟨_, rfl⟩
  obtain ⟨r, hrr⟩ := hok Y K _ F hK (C37_W_psd 1 one_ne_zero _ F hr').1
  obtain ⟨r', hrr'⟩ := hok (fun j => Y (e j)) K₀ _ f hK₀ (C37_W_psd 1 one_ne_zero _ f hr).1
  refine ⟨e, y, Y, K, K₀, F, f, r, r', hY, hY₀, hK, hF, hf, hrr, hrr', ?_⟩
  obtain ⟨Ks, h1, h2⟩ := C110_predict _ hF _ _ hrr
  obtain ⟨Ks', h3, h4⟩ := C110_predict _ hf _ _ hrr'
  have h1' : kcov k _ _ Y Y = .ok K := hY
  rw [h1'] at h1
  obtain rfl := Except.ok.inj h1
  rw [hKs] at h3
  obtain rfl := Except.ok.inj h3
  have hpull : pairPull 1 F (pairAlong e ⟨1, 0, 1⟩) = pairPull 1 f ⟨1, 0, 1⟩ := by
    have : pairPull 1 F (pairAlong e ⟨1, 0, 1⟩) = pairPull 1 (fun j => F (e j)) ⟨1, 0, 1⟩ := rfl
    rw [this, hat]
  have hpp := pairPull_pos one_pos f ⟨1, 0, 1⟩
  rw [h2, h4]
  simp only [hy, List.map_cons, List.map_nil, List.sum_cons, List.sum_nil, add_zero, hpull, of_apply]
  rw [hKe, hKe]
  simp [he, hYdef, pairAlong]
  exact hpp.ne'

/-- C117: `PreferenceLinear` finds exactly the same weights, whatever the further points are. -/
theorem C117_linear (e : Fin t ↪ Fin n) (P : ProbitSet) (y : TrainLabels t) (X : Matrix (Fin n) (Fin d) ℝ) (w0 : Fin d → ℝ) :
    linFit P (labelsAlong e y) X w0 = linFit P y (X.submatrix e id) w0 := by
  refine linFit_congr (fun w => linDerivatives_along e P y X w) (fun w => ?_) w0
  simp only [linLoss, logLikTraining_along]
  rfl

/-- C117: what `remove_without_reference` does to comparisons is exactly such leaving out. -/
theorem C117_remove {α R : Type*} [DecidableEq α] (st : ModelState d α R) {X : List (Fin d → α)} {ps : List Pair}
    (hX : st.X = some X) (hps : st.y.rel = some ps) (hin : ∀ p ∈ ps, p.u < X.length ∧ p.v < X.length) :
    ∃ (X' : List (Fin d → α)) (e : Fin X'.length ↪ Fin X.length) (y : List (IPair X'.length)),
      (removeUnreferenced st).1.X = some X' ∧ (removeUnreferenced st).1.y.rel = some (y.map plainPair) ∧
      ps = (y.map (pairAlong e)).map plainPair ∧ StrictMono e ∧ (∀ j, X'[j] = X[e j]) ∧
      ∀ i : Fin X.length, (∃ j, e j = i) ↔ ∃ p ∈ ps, p.u = i ∨ p.v = i := by
  have hany : ¬ (ps.any (fun p => decide (p.u ≥ X.length ∨ p.v ≥ X.length))) = true := by
    simp only [List.any_eq_true, decide_eq_true_eq, not_exists, not_and]
    intro p hp
    have := hin p hp
    omega
  set keep := referenced ps with hkeep
  have hform : (removeUnreferenced st).1.X = some (keptPts keep X) ∧ (removeUnreferenced st).1.y.rel =
      some (ps.map fun p => ⟨p.dk, p.u - removedUpTo ps p.u, p.v - removedUpTo ps p.v⟩) := by
    unfold removeUnreferenced
    simp only [hX, hps]
    rw [if_neg hany]
    cases st.prior <;> exact ⟨rfl, rfl⟩
  set L := keptRows keep X.length with hL
  have hpts : keptPts keep X = L.map X.get := keptRows_points keep X
  have hmono : ∀ a b : Nat, ∀ ha : a < L.length, ∀ hb : b < L.length, a < b → L[a] < L[b] := fun a b ha hb hab =>
    List.pairwise_iff_getElem.1 (keptRows_mono keep X.length) a b ha hb hab
  have hlen : (L.map X.get).length = L.length := by simp
  let ef : Fin (L.map X.get).length → Fin X.length := fun j => L[j.val]'(hlen ▸ j.isLt)
  have hef : StrictMono ef := fun a b hab => hmono _ _ _ _ hab
  let e : Fin (L.map X.get).length ↪ Fin X.length := ⟨ef, hef.injective⟩
  have href : ∀ i : Nat, keep i = true ↔ ∃ p ∈ ps, p.u = i ∨ p.v = i := by
    intro i
    rw [hkeep]
    unfold referenced
    simp
  have hpos : ∀ i : Fin X.length, keep i = true → ∃ j : Fin (L.map X.get).length, e j = i ∧ j.val = i - removedUpTo ps i := by
    intro i hi
    have h1 := keptRows_pos i hi
    obtain ⟨hlt, h2⟩ := List.getElem?_eq_some_iff.1 h1
    exact ⟨⟨_, hlen.symm ▸ hlt⟩, h2, (sub_removedUpTo ps i hi).symm⟩
  have hy : ∀ qs : List Pair, (∀ p ∈ qs, p ∈ ps) → ∃ y : List (IPair (L.map X.get).length),
      (qs.map fun p => (⟨p.dk, p.u - removedUpTo ps p.u, p.v - removedUpTo ps p.v⟩ : Pair)) = y.map plainPair ∧
      qs = (y.map (pairAlong e)).map plainPair := by
    intro qs
    induction qs with
    | nil => exact fun _ => ⟨[], rfl, rfl⟩
    | cons p qs ih =>
      intro h
      obtain ⟨y, h1, h2⟩ := ih fun q hq => h q (List.mem_cons_of_mem _ hq)
      have hp := h p List.mem_cons_self
      obtain ⟨a, ha, ha'⟩ := hpos ⟨p.u, (hin p hp).1⟩ ((href _).2 ⟨p, hp, Or.inl rfl⟩)
      obtain ⟨b, hb, hb'⟩ := hpos ⟨p.v, (hin p hp).2⟩ ((href _).2 ⟨p, hp, Or.inr rfl⟩)
      refine ⟨⟨p.dk, a, b⟩ :: y, ?_, ?_⟩
      · simp only [List.map_cons, h1, plainPair, ha', hb']
      · simp only [List.map_cons, ← h2, plainPair, pairAlong, ha, hb]
  obtain ⟨y, h1, h2⟩ := hy ps fun _ h => h
  rw [hpts] at hform
  refine ⟨L.map X.get, e, y, hform.1, by rw [hform.2, h1], h2, hef, fun j => ?_, fun i => ?_⟩
  · simp only [Fin.getElem_fin, List.getElem_map, List.get_eq_getElem]
    rfl
  · rw [← href]
    constructor
    · rintro ⟨j, rfl⟩
      exact keptRows_keep (List.getElem_mem _)
    · intro h
      obtain ⟨j, hj, -⟩ := hpos i h
      exact ⟨j, hj⟩

/-- The hypotheses of `C117_asked`: three stored points, one comparison of the first two, one test point. -/
example : ∃ K K₀ F f, kcov (.leaf (.rbf 1 1 (1 / 100))) _ _ (![![0], ![1], ![2]] : Fin 3 → Pt 1) ![![0], ![1], ![2]] = .ok K ∧
    kcov (.leaf (.rbf 1 1 (1 / 100))) _ _ (fun j : Fin 2 => (![![0], ![1], ![2]] : Fin 3 → Pt 1) (Fin.castSuccEmb j))
      (fun j => (![![0], ![1], ![2]] : Fin 3 → Pt 1) (Fin.castSuccEmb j)) = .ok K₀ ∧ K.PosDef ∧
    IsMode 1 ([(⟨1, 0, 1⟩ : IPair 2)].map (pairAlong Fin.castSuccEmb)) K F ∧ IsMode 1 [⟨1, 0, 1⟩] K₀ f := by
  obtain ⟨K, hY, hK, -⟩ := C31_definite_partial (.leaf (.rbf 1 1 (1 / 100))) (![![0], ![1], ![2]] : Fin 3 → Pt 1) (by norm_num)
    (by simp [AllLeaves, LeafOK]) (by simp [AllLeaves, NotZeroed]) (.rbf (by norm_num))
  have hY₀ := (C117_predict_noisy (.leaf (.rbf 1 1 (1 / 100))) (by simp [AllLeaves, NotZeroed]) (Fin.castSuccEmb (n := 2))
    (by norm_num) hY hK 0 0 (![![5]] : Fin 1 → Pt 1) (by norm_num)).1
  obtain ⟨F, hF, -⟩ := C97_mode_unique 1 ([(⟨1, 0, 1⟩ : IPair 2)].map (pairAlong Fin.castSuccEmb)) hK
  obtain ⟨f, hf, -⟩ := C97_mode_unique 1 [(⟨1, 0, 1⟩ : IPair 2)] (K := K.submatrix Fin.castSuccEmb Fin.castSuccEmb)
    (hK.submatrix (Fin.castSuccEmb (n := 2)).injective)
  exact ⟨K, _, F, f, hY, hY₀, hK, hF, hf⟩

/-- The hypotheses of `C117_remove`: of three stored points the first is in no comparison. -/
example : ∃ st : ModelState 1 Int ℚ, st.X = some [![7], ![1], ![2]] ∧ st.y.rel = some [⟨-1, 2, 1⟩] ∧
    (removeUnreferenced st).1.X = some [![1], ![2]] ∧ (removeUnreferenced st).1.y.rel = some [⟨-1, 1, 0⟩] :=
  ⟨{ X := some [![7], ![1], ![2]], y := { rel := some [⟨-1, 2, 1⟩] }, prior := some (1, 3) }, rfl, rfl,
    by decide +kernel, by decide +kernel⟩

/-- The hypothesis of `C117_update` on the Hessian and of `C117_update_pairs`: one comparison, value 0 everywhere. -/
example : PairsInRange 1 [(⟨1, 0, 1⟩ : IPair 2)] 0 := by
  intro p _
  simp [pairZ]

end Lop.Props
