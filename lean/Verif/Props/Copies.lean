import Verif.Proofs.Copies
import Verif.Props.Unasked
import Verif.Props.Laplace
import Verif.Props.Data

/-! # C122: an item that is stored several times -/

namespace Lop.Props

open Lop.Spec Matrix

variable {n t d m : Nat}

/-- C122: `add` stores every point it is given. A question that is asked a second time is stored with new copies of its
points. -/
theorem C122_added_again {α R : Type*} [LinearOrder α] [Field R] [LinearOrder R] (pareto : Bool) (st : ModelState d α R)
    (Q : List (Fin d → α)) (inp inp' : AddInput R) :
    ∃ l, (modelAdd pareto (modelAdd pareto st Q inp).1 Q inp').1.X = some l ∧ l = st.X.getD [] ++ Q ++ Q ∧
      (Q ≠ [] → ¬ l.Nodup) := by
  have hadd : ∀ (st : ModelState d α R) inp, (modelAdd pareto st Q inp).1.X = some (st.X.getD [] ++ Q) := by
    intro st inp
    simp only [modelAdd]
    split <;> rfl
  refine ⟨_, by rw [hadd, hadd]; rfl, rfl, fun hQ h => ?_⟩
  obtain ⟨q, hq⟩ := List.exists_mem_of_ne_nil Q hQ
  rw [List.nodup_append] at h
  exact h.2.2 q (List.mem_append_right _ hq) q hq rfl

/-- C122, `PreferenceLinear`: the fit to comparisons is exactly the same as with every item stored once, whichever copies
the comparisons mention. -/
theorem C122_linear (P : ProbitSet) (y : List (IPair n)) (items : Fin n → Fin t) (X : Matrix (Fin t) (Fin d) ℝ)
    (w0 : Fin d → ℝ) :
    linFit P (onlyPairs y) (X.submatrix items id) w0 = linFit P (onlyPairs (y.map (renamed items))) X w0 := by
  refine linFit_congr (fun w => linDerivatives_copies P y items X w) (fun w => ?_) w0
  simp only [linLoss, logLikTraining, onlyPairs, ordLogPart, pairLogPart, absLogPart, Except.map, Option.map_some, prefLogLik,
    List.map_map, Function.comp_def]
  rfl

/-- C122, `PreferenceGP`, refuted for kernels without noise: with two copies of one point `find_mode` stores its random start
vector, whatever was said, and `predict` raises for all query points. -/
theorem C122_noiseless_false (k : KExpr ℝ (Pt d)) (hq : AllLeaves NoNoise k) (Y : Fin (n + 1) → Pt d) {i j : Fin (n + 1)}
    (hij : i ≠ j) (hY : Y i = Y j) {K : Matrix (Fin (n + 1)) (Fin (n + 1)) ℝ} (hK : kcov k _ _ Y Y = .ok K)
    (invert : Matrix (Fin (n + 1)) (Fin (n + 1)) ℝ → Option (Matrix (Fin (n + 1)) (Fin (n + 1)) ℝ)) :
    (∀ o P y F0, findMode o P y K invert F0 = (gpDerivatives P y F0).map fun D => ⟨some F0, 0, D⟩) ∧
    ∀ W F, ∀ X : Fin (m + 1) → Pt d, prefGpPredict (kcov k) Y K W F invert X = .error .valueError := by
  have hn : ¬ K.PosDef := by
    intro h
    obtain ⟨g, hg⟩ := cov_pointwise k hq
    refine h.det_pos.ne' (det_zero_of_row_eq hij ?_)
    funext l
    rw [hg _ _ _ hK, hg _ _ _ hK, hY]
  refine ⟨fun o P y F0 => singular_fit hn o P y invert F0, fun W F X => ?_⟩
  obtain ⟨Ks, h1⟩ := cov_returns k X Y (by omega)
  obtain ⟨Kss, h2⟩ := cov_returns k X X (by omega)
  exact singular_predict hn W F invert X h1 h2

/-- C122: with a linear kernel the same happens without any copies, as soon as there are more than `d + 1` training
points. -/
theorem C122_linear_kernel_false (s b c : ℝ) (Y : Fin (n + 1) → Pt d) (hn : d + 1 < n + 1)
    {K : Matrix (Fin (n + 1)) (Fin (n + 1)) ℝ} (hK : kcov (.leaf (.linear s b c) : KExpr ℝ (Pt d)) _ _ Y Y = .ok K)
    (invert : Matrix (Fin (n + 1)) (Fin (n + 1)) ℝ → Option (Matrix (Fin (n + 1)) (Fin (n + 1)) ℝ)) :
    (∀ o P y F0, findMode o P y K invert F0 = (gpDerivatives P y F0).map fun D => ⟨some F0, 0, D⟩) ∧
    ∀ W F, ∀ X : Fin (m + 1) → Pt d,
      prefGpPredict (kcov (.leaf (.linear s b c))) Y K W F invert X = .error .valueError := by
  have hn := linear_singular s b c Y hn hK
  refine ⟨fun o P y F0 => singular_fit hn o P y invert F0, fun W F X => ?_⟩
  exact singular_predict hn W F invert X rfl rfl

/-- C122, kernels with noise: the predicted means depend on the copies only through how strongly each item is pulled by all
comparisons of all its copies together. -/
theorem C122_mean (k : KExpr ℝ (Pt d)) (hnz : AllLeaves NotZeroed k) (items : Fin n → Fin t) (Z : Fin t → Pt d)
    {sigma : ℝ} {y : List (IPair n)} {K W : Matrix (Fin n) (Fin n) ℝ} {F : Fin n → ℝ} (hF : IsMode sigma y K F)
    {invert : Matrix (Fin n) (Fin n) ℝ → Option (Matrix (Fin n) (Fin n) ℝ)} {X : Fin m → Pt d} (hm : m ≠ n) {r : GPPred m}
    (hr : prefGpPredict (kcov k) (fun i => Z (items i)) K W F invert X = .ok r) (x : Fin m) :
    r.mu x = ∑ j, k.eval (X x) (Z j) * itemPull sigma y F items j := by
  obtain ⟨Ks, h1, hK, h2⟩ := predict_inv hr
  have hu : IsUnit K.det := (Matrix.isUnit_iff_isUnit_det _).1 hK.isUnit
  have h3 : K⁻¹ *ᵥ F = pairGradV sigma y F := by
    conv_lhs => rw [(isMode_iff_fixed hK).1 hF]
    rw [mulVec_mulVec, nonsing_inv_mul _ hu, one_mulVec]
  rw [itemPull_sum sigma y F items fun j => k.eval (X x) (Z j), h2, h3]
  have h4 : Ks x = fun i => k.eval (X x) (Z (items i)) := funext fun i => cov_entry k hnz X _ h1 x i fun h => hm h.1
  rw [← h4]
  rfl

/-- C122, kernels with noise: the stored values of two copies differ by the noise times the difference of the pulls on the two
copies. So they are equal only if equally much was said about both. -/
theorem C122_values (k : KExpr ℝ (Pt d)) (hnz : AllLeaves NotZeroed k) (hsum : OnlySums k) {Y : Fin n → Pt d} {sigma : ℝ}
    {y : List (IPair n)} {K : Matrix (Fin n) (Fin n) ℝ} (hY : kcov k _ _ Y Y = .ok K) (hK : K.PosDef) {F : Fin n → ℝ}
    (hF : IsMode sigma y K F) {i j : Fin n} (hij : Y i = Y j) :
    F i - F j = noiseSum k * (itemPull sigma y F id i - itemPull sigma y F id j) := by
  have e : ∀ a b, K a b = k.eval (Y a) (Y b) + if a = b then noiseSum k else 0 := by
    intro a b
    by_cases hab : a = b
    · subst hab
      rw [if_pos rfl]
      exact cov_entry_noise k hnz hsum Y Y hY a a ⟨rfl, ⟨by have := a.pos; omega, by have := a.pos; omega, rfl⟩, rfl⟩
    · rw [if_neg hab, add_zero]
      exact cov_entry k hnz Y Y hY a b fun h => hab (Fin.ext h.2.2)
  have h := (isMode_iff_fixed hK).1 hF
  have hv : ∀ a, F a = (∑ b, k.eval (Y a) (Y b) * pairGradV sigma y F b) + noiseSum k * pairGradV sigma y F a := by
    intro a
    conv_lhs => rw [h]
    simp only [mulVec, dotProduct, e, add_mul, Finset.sum_add_distrib, ite_mul, zero_mul, Finset.sum_ite_eq,
      Finset.mem_univ, if_true]
  rw [hv i, hv j, hij, itemPull_id, itemPull_id]
  ring

/-- C122 refuted for kernels with noise: the same answer given `c ≥ 2` times and stored with new copies of the two points each
time makes the model believe more than the same answers stored with the points once. All predicted means are larger by the
same factor. -/
theorem C122_again_false {s l noise sigma : ℝ} (hs : s ≠ 0) (hl : l ≠ 0) (hn : 0 < noise) (hsig : 0 < sigma) {A B : Pt d}
    (hAB : A ≠ B) {c : Nat} (hc : 2 ≤ c) {K K₀ : Matrix _ _ ℝ}
    (hK : kcov (.leaf (.rbf s l noise)) _ _ (freshCopies c A B) (freshCopies c A B) = .ok K)
    (hK₀ : kcov (.leaf (.rbf s l noise)) _ _ ![A, B] ![A, B] = .ok K₀) {W W₀ : Matrix _ _ ℝ} {F : Fin (c + c) → ℝ} {f : Fin 2 → ℝ}
    (hF : IsMode sigma (freshAnswers c) K F) (hf : IsMode sigma (List.replicate c ⟨1, 1, 0⟩) K₀ f)
    {inv inv₀} {X : Fin m → Pt d} (hm : m ≠ c + c) (hm2 : m ≠ 2) {r r₀ : GPPred m}
    (hr : prefGpPredict (kcov (.leaf (.rbf s l noise))) (freshCopies c A B) K W F inv X = .ok r)
    (hr₀ : prefGpPredict (kcov (.leaf (.rbf s l noise))) ![A, B] K₀ W₀ f inv₀ X = .ok r₀) :
    ∃ b b₀ : ℝ, 0 < b₀ ∧ b₀ < b ∧ ∀ x, r.mu x = b * (rbfEval s l (X x) A - rbfEval s l (X x) B) ∧
      r₀.mu x = b₀ * (rbfEval s l (X x) A - rbfEval s l (X x) B) := by
  set k : KExpr ℝ (Pt d) := .leaf (.rbf s l noise) with hk
  have hnz : AllLeaves NotZeroed k := by simp [hk, AllLeaves, NotZeroed]
  set q := Real.sqrt 2 * sigma with hq
  have hq0 : 0 < q := by positivity
  -- the gap of the two items
  have hgap : 0 < s * s - rbfEval s l A B := by
    have h1 : 0 < sqDist A B := by
      refine lt_of_le_of_ne (Finset.sum_nonneg fun i _ => mul_self_nonneg _) fun h => hAB ?_
      funext i
      have := (Finset.sum_eq_zero_iff_of_nonneg fun i _ => mul_self_nonneg _).1 h.symm i (Finset.mem_univ i)
      exact sub_eq_zero.1 (mul_self_eq_zero.1 this)
    have h2 : Real.exp (-sqDist A B / (2 * l * l)) < 1 := by
      rw [Real.exp_lt_one_iff]
      have : 0 < 2 * l * l := by have := mul_self_pos.2 hl; linarith
      exact div_neg_of_neg_of_pos (by linarith) this
    have h3 := mul_self_pos.2 hs
    rw [rbfEval]
    nlinarith
  set D := s * s - rbfEval s l A B with hD
  -- stored once
  obtain ⟨-, -, hK₀p, -⟩ := predict_inv hr₀
  have e₀ : K₀ = Matrix.of fun i j => rbfEval s l (![A, B] i) (![A, B] j) + if i = j then noise else 0 := by
    simp only [hk, kcov, KExpr.cov, KLeaf.cov, rbfCov] at hK₀
    norm_num at hK₀
    rw [← hK₀]
    ext i j
    simp [noiseTerm, Fin.ext_iff]
  have hy₀ : ∀ p ∈ List.replicate c (⟨1, 1, 0⟩ : IPair 2), AboutPair 1 0 p := by
    intro p hp
    rw [List.eq_of_mem_replicate hp]
    simp [AboutPair]
  have hz₀ := about_mode hsig (u := 1) (v := 0) (by decide) hy₀ (a := c) (b := 0) (by simp [answerSign]) hK₀p hf
  set z₀ := (f 0 - f 1) / q with hz₀d
  have hV : K₀ 0 0 - K₀ 0 1 - (K₀ 1 0 - K₀ 1 1) = 2 * (D + noise) := by
    rw [e₀]
    simp [rbfEval_self, hD, rbfEval_comm s l B A]
    ring
  rw [hV, zero_mul, sub_zero, ← hq] at hz₀
  have hmu₀ : ∀ x, r₀.mu x = c * mratio z₀ / q * (rbfEval s l (X x) A - rbfEval s l (X x) B) := by
    intro x
    rw [C122_mean k hnz id ![A, B] hf hm2 hr₀ x]
    have hp : pairPull sigma f ⟨1, 1, 0⟩ = mratio z₀ / q := by simp [pairPull, pairZ, mratio, hz₀d, hq]
    simp [itemPull, Fin.sum_univ_two, List.map_replicate, hp, hk, KExpr.eval, KLeaf.eval]
    ring
  -- stored with copies
  obtain ⟨-, -, hKp, -⟩ := predict_inv hr
  have hc0 : 0 < c := by omega
  set zz : Fin c → ℝ := fun j => (F (Fin.castAdd c j) - F (Fin.natAdd c j)) / q with hzz
  have hsumy : ∀ g : IPair (c + c) → ℝ, ((freshAnswers c).map g).sum =
      ∑ j : Fin c, g ⟨1, Fin.natAdd c j, Fin.castAdd c j⟩ := by
    intro g
    rw [freshAnswers, List.map_ofFn, List.sum_ofFn]
    rfl
  have hpull : ∀ j, pairPull sigma F ⟨1, Fin.natAdd c j, Fin.castAdd c j⟩ = mratio (zz j) / q := by
    intro j
    simp [pairPull, pairZ, mratio, hzz, hq]
  have hdot : ∀ a : Fin (c + c) → ℝ, a ⬝ᵥ pairGradV sigma (freshAnswers c) F =
      ∑ j : Fin c, mratio (zz j) / q * (a (Fin.castAdd c j) - a (Fin.natAdd c j)) := by
    intro a
    rw [dot_pairGradV, hsumy]
    simp only [hpull, Int.cast_one, mul_one]
  have eK : ∀ i j, K i j = rbfEval s l (freshCopies c A B i) (freshCopies c A B j) + if i = j then noise else 0 := by
    intro i j
    simp only [hk, kcov, KExpr.cov, KLeaf.cov, rbfCov] at hK
    rw [if_neg (by omega)] at hK
    simp only [Except.ok.injEq] at hK
    rw [← hK]
    have : 0 < c := hc0
    simp [noiseTerm, Fin.ext_iff, this]
  have hA : ∀ j, freshCopies c A B (Fin.castAdd c j) = A := fun j => by simp [freshCopies]
  have hB : ∀ j, freshCopies c A B (Fin.natAdd c j) = B := fun j => by simp only [freshCopies, Fin.append_right]
  have hfix := (isMode_iff_fixed hKp).1 hF
  set S := ∑ j, mratio (zz j) with hS
  have hne : ∀ i j : Fin c, (Fin.castAdd c i : Fin (c + c)) ≠ Fin.natAdd c j := by
    intro i j h
    have := congrArg Fin.val h
    simp at this
    omega
  have hFA : ∀ j, F (Fin.castAdd c j) = D * S / q + noise * mratio (zz j) / q := by
    intro j
    have : F (Fin.castAdd c j) = K (Fin.castAdd c j) ⬝ᵥ pairGradV sigma (freshAnswers c) F := congrFun hfix _
    rw [this, hdot]
    simp only [eK, hA, hB, rbfEval_self, Fin.castAdd_inj, if_neg (hne _ _), add_zero]
    have e2 : ∀ i, mratio (zz i) / q * (s * s + (if j = i then noise else 0) - rbfEval s l A B) =
        D / q * mratio (zz i) + if j = i then noise * mratio (zz i) / q else 0 := by
      intro i
      split_ifs <;> (rw [hD]; ring)
    simp only [e2, Finset.sum_add_distrib, ← Finset.mul_sum, Finset.sum_ite_eq, Finset.mem_univ, if_true, ← hS]
    ring
  have hFB : ∀ j, F (Fin.natAdd c j) = -(D * S / q + noise * mratio (zz j) / q) := by
    intro j
    have : F (Fin.natAdd c j) = K (Fin.natAdd c j) ⬝ᵥ pairGradV sigma (freshAnswers c) F := congrFun hfix _
    rw [this, hdot]
    simp only [eK, hA, hB, rbfEval_self, Fin.natAdd_inj, if_neg (hne _ _).symm, add_zero]
    have e2 : ∀ i, mratio (zz i) / q * (rbfEval s l B A - (s * s + (if j = i then noise else 0))) =
        -(D / q * mratio (zz i) + if j = i then noise * mratio (zz i) / q else 0) := by
      intro i
      rw [rbfEval_comm s l B A]
      split_ifs <;> (rw [hD]; ring)
    simp only [e2, Finset.sum_neg_distrib, Finset.sum_add_distrib, ← Finset.mul_sum, Finset.sum_ite_eq, Finset.mem_univ,
      if_true, ← hS]
    ring
  have hzj : ∀ j, zz j = 2 * D * S / q ^ 2 + 2 * noise / q ^ 2 * mratio (zz j) := by
    intro j
    have : zz j = (F (Fin.castAdd c j) - F (Fin.natAdd c j)) / q := rfl
    have hd : F (Fin.castAdd c j) - F (Fin.natAdd c j) = 2 * (D * S / q + noise * mratio (zz j) / q) := by
      rw [hFA, hFB]
      ring
    rw [hd] at this
    exact this.trans (by ring)
  have heq : ∀ i j, zz i = zz j := by
    have key : ∀ i j, ¬ zz i < zz j := by
      intro i j h
      have h1 := mratio_strictAnti h
      have h2 : 0 < 2 * noise / q ^ 2 := by positivity
      have h3 := hzj i
      have h4 := hzj j
      nlinarith [mul_lt_mul_of_pos_left h1 h2]
    intro i j
    exact le_antisymm (not_lt.1 (key j i)) (not_lt.1 (key i j))
  set z := zz ⟨0, hc0⟩ with hzd
  have hSz : S = c * mratio z := by
    rw [hS, Finset.sum_congr rfl fun j _ => by rw [heq j ⟨0, hc0⟩]]
    rw [Finset.sum_const, Finset.card_univ, Fintype.card_fin, nsmul_eq_mul]
  have hz := hzj ⟨0, hc0⟩
  rw [← hzd, hSz] at hz
  have hcr : (2 : ℝ) ≤ c := by exact_mod_cast hc
  have hmr := mratio_pos z
  have hmr₀ := mratio_pos z₀
  have hlt : z < z₀ := by
    by_contra h
    have h1 := mratio_strictAnti.antitone (not_lt.1 h)
    have h2 : z < 2 * (D + noise) / q ^ 2 * (c * mratio z) := by
      have : 0 < 2 * noise / q ^ 2 * ((c - 1) * mratio z) := by
        have : (0 : ℝ) < c - 1 := by linarith
        positivity
      have e : 2 * (D + noise) / q ^ 2 * (c * mratio z) = 2 * D * (c * mratio z) / q ^ 2 + 2 * noise / q ^ 2 * mratio z +
          2 * noise / q ^ 2 * ((c - 1) * mratio z) := by ring
      linarith
    have h3 : 2 * (D + noise) / q ^ 2 * (c * mratio z) ≤ 2 * (D + noise) / q ^ 2 * (c * mratio z₀) :=
      mul_le_mul_of_nonneg_left (mul_le_mul_of_nonneg_left h1 (by linarith)) (by positivity)
    linarith
  have hmlt := mratio_strictAnti hlt
  have hcp : (0 : ℝ) < c := by linarith
  refine ⟨c * mratio z / q, c * mratio z₀ / q, by positivity, ?_, fun x => ⟨?_, hmu₀ x⟩⟩
  · exact div_lt_div_of_pos_right (mul_lt_mul_of_pos_left hmlt hcp) hq0
  · have := C122_mean k hnz id (freshCopies c A B) hF hm hr x
    rw [this, itemPull_sum (e := fun j => k.eval (X x) (freshCopies c A B j))]
    simp only [id]
    rw [hdot]
    simp only [hA, hB, hk, KExpr.eval, KLeaf.eval]
    rw [← Finset.sum_mul, ← Finset.sum_div, ← hS, hSz]

/-- A model with noise and copies can be fitted: the matrix is positive definite (`C31_definite_partial`) and the mode
exists. -/
example (A B : Pt d) (c : Nat) (hc : 0 < c) : ∃ K F,
    kcov (.leaf (.rbf 1 1 (1 / 100))) _ _ (freshCopies c A B) (freshCopies c A B) = .ok K ∧ K.PosDef ∧
      IsMode 1 (freshAnswers c) K F := by
  obtain ⟨K, hK, hp, -⟩ := C31_definite_partial (.leaf (.rbf 1 1 (1 / 100))) (freshCopies c A B) (by omega)
    (by simp [AllLeaves, LeafOK]) (by simp [AllLeaves, NotZeroed]) (.rbf (by norm_num))
  obtain ⟨F, hF, -⟩ := C97_mode_unique 1 (freshAnswers c) hp
  exact ⟨K, F, hK, hp, hF⟩

/-- … and it predicts. -/
example (A B : Pt d) (c : Nat) (hc : 0 < c) (X : Fin 3 → Pt d) : ∃ K F r,
    kcov (.leaf (.rbf 1 1 (1 / 100))) _ _ (freshCopies c A B) (freshCopies c A B) = .ok K ∧
      IsMode 1 (freshAnswers c) K F ∧
      prefGpPredict (kcov (.leaf (.rbf 1 1 (1 / 100)))) (freshCopies c A B) K 0 F npInv X = .ok r := by
  obtain ⟨K, hK, hp, -⟩ := C31_definite_partial (.leaf (.rbf 1 1 (1 / 100))) (freshCopies c A B) (by omega)
    (by simp [AllLeaves, LeafOK]) (by simp [AllLeaves, NotZeroed]) (.rbf (by norm_num))
  obtain ⟨F, hF, -⟩ := C97_mode_unique 1 (freshAnswers c) hp
  obtain ⟨Ks, h1⟩ := cov_returns (.leaf (.rbf 1 1 (1 / 100))) X (freshCopies c A B) (by norm_num)
  obtain ⟨Kss, h2⟩ := cov_returns (.leaf (.rbf 1 1 (1 / 100))) X X (by norm_num)
  have h3 : npInv (1 + (0 : Matrix (Fin (c + c)) (Fin (c + c)) ℝ) * K) = some 1 := by simp [npInv]
  have h4 : prefGpPredict (kcov (.leaf (.rbf 1 1 (1 / 100)))) (freshCopies c A B) K 0 F npInv X =
      laplacePredict K 0 F npInv Ks Kss := by
    unfold prefGpPredict
    simp only [kcov, h1, h2, bind, Except.bind]
  rw [laplacePredict, if_pos hp, h3] at h4
  exact ⟨K, F, _, hK, hF, h4⟩

/-- Two copies of one point under a periodic kernel, and three points on a line under a linear kernel. -/
example : AllLeaves NoNoise (.leaf (.periodic 1 2 6) : KExpr ℝ (Pt 1)) ∧ (1 : Nat) + 1 < 2 + 1 := by
  simp [AllLeaves, NoNoise, noiseOf]

/-- Two copies of the second item, each mentioned once: renaming gives the comparisons of the two items. -/
example : ([⟨1, 0, 1⟩, ⟨-1, 0, 2⟩] : List (IPair 3)).map (renamed ![0, 1, 1]) = [⟨1, 0, 1⟩, (⟨-1, 0, 1⟩ : IPair 2)] := by
  simp [renamed]

end Lop.Props
