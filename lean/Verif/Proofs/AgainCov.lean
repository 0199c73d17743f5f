import Verif.Proofs.Again
import Verif.Spec.Again
import Verif.Props.ModeLearned
import Verif.Props.Laplace

/-! # Helper lemmas: covariance after repeated comparisons of the same two points -/

namespace Lop

open Lop.Spec Lop.Props Matrix

variable {n t d : Nat}

/-- `1` for an answer in favour of `v`, `-1` for one in favour of the other point. -/
noncomputable def answerSign (v : Fin n) (p : IPair n) : ℝ := p.dk * (if p.v = v then 1 else -1)

theorem answerSign_cases {u v : Fin n} {p : IPair n} (h : AboutPair u v p) :
    answerSign v p = 1 ∨ answerSign v p = -1 := by
  obtain ⟨h | h, -⟩ := h <;> by_cases hv : p.v = v <;> simp [answerSign, h, hv]

theorem answerSign_diff {u v : Fin n} (huv : u ≠ v) {p : IPair n} (h : AboutPair u v p) (x : Fin n → ℝ) :
    (p.dk : ℝ) * (x p.v - x p.u) = answerSign v p * (x v - x u) := by
  obtain ⟨-, ⟨h1, h2⟩ | ⟨h1, h2⟩⟩ := h
  · simp [answerSign, h1, h2]
  · simp [answerSign, h1, h2, huv]
    ring

theorem pairZ_about {u v : Fin n} (huv : u ≠ v) {p : IPair n} (h : AboutPair u v p) (sigma : ℝ) (F : Fin n → ℝ) :
    pairZ sigma F p = answerSign v p * ((F v - F u) / (Real.sqrt 2 * sigma)) := by
  rw [pairZ, answerSign_diff huv h, mul_div_assoc]

/-- The coordinate difference `x v - x u`. -/
def diffVec (u v : Fin n) : Fin n → ℝ := Pi.single v 1 - Pi.single u 1

theorem inc_about {u v : Fin n} {p : IPair n} (h : AboutPair u v p) (i j : Fin n) :
    inc p i * inc p j = diffVec u v i * diffVec u v j := by
  obtain ⟨-, ⟨h1, h2⟩ | ⟨h1, h2⟩⟩ := h <;>
    simp only [inc, diffVec, h1, h2, Pi.sub_apply, Pi.single_apply, eq_comm] <;> ring

/-- Sums over answers about one pair. -/
theorem about_counts {u v : Fin n} (y : List (IPair n)) (hy : ∀ p ∈ y, AboutPair u v p) :
    ∃ a b : Nat, a + b = y.length ∧
      ∀ f : ℝ → ℝ, (y.map fun p => f (answerSign v p)).sum = a * f 1 + b * f (-1) := by
  induction y with
  | nil => exact ⟨0, 0, rfl, fun f => by simp⟩
  | cons p y ih =>
    obtain ⟨a, b, hab, h⟩ := ih fun q hq => hy q (List.mem_cons_of_mem _ hq)
    rcases answerSign_cases (hy p List.mem_cons_self) with hp | hp
    · refine ⟨a + 1, b, by simp [← hab]; omega, fun f => ?_⟩
      simp only [List.map_cons, List.sum_cons, h, hp]
      push_cast
      ring
    · refine ⟨a, b + 1, by simp [← hab]; omega, fun f => ?_⟩
      simp only [List.map_cons, List.sum_cons, h, hp]
      push_cast
      ring

/-- The mode's standardised difference. -/
theorem about_mode {sigma : ℝ} (hs : 0 < sigma) {u v : Fin n} (huv : u ≠ v) {y : List (IPair n)}
    (hy : ∀ p ∈ y, AboutPair u v p) {a b : ℝ}
    (hab : ∀ f : ℝ → ℝ, (y.map fun p => f (answerSign v p)).sum = a * f 1 + b * f (-1))
    {K : Matrix (Fin n) (Fin n) ℝ} (hK : K.PosDef) {m : Fin n → ℝ} (hm : IsMode sigma y K m) :
    (m v - m u) / (Real.sqrt 2 * sigma) = (K v v - K v u - (K u v - K u u)) / (Real.sqrt 2 * sigma) ^ 2 *
      (a * mratio ((m v - m u) / (Real.sqrt 2 * sigma)) - b * mratio (-((m v - m u) / (Real.sqrt 2 * sigma)))) := by
  have hc : 0 < Real.sqrt 2 * sigma := by positivity
  have hfix := (C110_representer hs _ hK m).1.1 hm
  set z := (m v - m u) / (Real.sqrt 2 * sigma) with hz
  have hval : ∀ i, m i = (a * mratio z - b * mratio (-z)) / (Real.sqrt 2 * sigma) * (K i v - K i u) := by
    intro i
    rw [hfix i]
    have : (y.map fun p => pairPull sigma m p * p.dk * (K i p.v - K i p.u)).sum =
        (y.map fun p => (fun e => mratio (e * z) / (Real.sqrt 2 * sigma) * (e * (K i v - K i u)))
          (answerSign v p)).sum := by
      refine sum_map_congr fun p hp => ?_
      rw [mul_assoc, answerSign_diff huv (hy p hp) (fun j => K i j), pairPull, pairZ_about huv (hy p hp), ← hz]
      rfl
    rw [this]
    refine (hab fun e => mratio (e * z) / (Real.sqrt 2 * sigma) * (e * (K i v - K i u))).trans ?_
    simp only [one_mul, neg_mul]
    ring
  have hd : m v - m u = (a * mratio z - b * mratio (-z)) / (Real.sqrt 2 * sigma) *
      (K v v - K v u - (K u v - K u u)) := by
    rw [hval v, hval u]
    ring
  have hz' : z * (Real.sqrt 2 * sigma) = m v - m u := by rw [hz, div_mul_cancel₀ _ hc.ne']
  rw [hd] at hz'
  rw [div_mul_eq_mul_div, eq_div_iff (by positivity), sq, ← mul_assoc, hz']
  field_simp

/-- `W` of answers about one pair. -/
theorem about_W {sigma : ℝ} {u v : Fin n} (huv : u ≠ v) {y : List (IPair n)}
    (hy : ∀ p ∈ y, AboutPair u v p) {a b : ℝ}
    (hab : ∀ f : ℝ → ℝ, (y.map fun p => f (answerSign v p)).sum = a * f 1 + b * f (-1))
    {m : Fin n → ℝ} (hr : PairsInRange sigma y m) :
    prefW sigma y m = (answersInfo a b ((m v - m u) / (Real.sqrt 2 * sigma)) / (Real.sqrt 2 * sigma) ^ 2) •
      vecMulVec (diffVec u v) (diffVec u v) := by
  ext i j
  rw [prefW_apply, Matrix.smul_apply, vecMulVec_apply]
  have : (y.map fun p => (p.dk : ℝ) ^ 2 * isqrt2sig sigma ^ 2 *
      (zk sigma m p * pdfCdfRatio (zk sigma m p) + pdfCdfRatio2 (zk sigma m p)) * (inc p i * inc p j)).sum =
      (y.map fun p => (fun e => mcurv (e * ((m v - m u) / (Real.sqrt 2 * sigma))) / (Real.sqrt 2 * sigma) ^ 2 *
        (diffVec u v i * diffVec u v j)) (answerSign v p)).sum := by
    refine sum_map_congr fun p hp => ?_
    have hd : (p.dk : ℝ) ^ 2 = 1 := by
      rcases (hy p hp).1 with h | h <;> simp [h]
    have hz : zk sigma m p = pairZ sigma m p := by
      rw [zk, pairZ, isqrt2sig]
      ring
    rw [pdfCdfRatio_of_mem (inRange_zk hr p hp).1.le (inRange_zk hr p hp).2.le,
      pdfCdfRatio2_of_mem (inRange_zk hr p hp).1.le (inRange_zk hr p hp).2.le, hd, inc_about (hy p hp),
      hz, pairZ_about huv (hy p hp), isqrt2sig]
    simp only [mcurv]
    ring
  rw [this]
  refine (hab fun e => mcurv (e * ((m v - m u) / (Real.sqrt 2 * sigma))) / (Real.sqrt 2 * sigma) ^ 2 *
    (diffVec u v i * diffVec u v j)).trans ?_
  simp only [one_mul, neg_mul, answersInfo, smul_eq_mul]
  ring

theorem diffVec_quad (K : Matrix (Fin n) (Fin n) ℝ) (u v : Fin n) :
    diffVec u v ⬝ᵥ (K *ᵥ diffVec u v) = K v v - K v u - (K u v - K u u) := by
  simp only [diffVec, mulVec_sub, sub_dotProduct, dotProduct_sub, mulVec_single, single_dotProduct,
    MulOpposite.op_one, one_smul, col_apply, one_mul]
  ring

theorem diffVec_cross (K : Matrix (Fin n) (Fin n) ℝ) (u v u' v' : Fin n) :
    diffVec u v ⬝ᵥ (K *ᵥ diffVec u' v') = K v v' - K v u' - (K u v' - K u u') := by
  simp only [diffVec, mulVec_sub, sub_dotProduct, dotProduct_sub, mulVec_single, single_dotProduct,
    MulOpposite.op_one, one_smul, col_apply, one_mul]
  ring

/-- Covariance predicted after answers about one pair. -/
theorem about_cov {sigma : ℝ} (hs : 0 < sigma) {u v : Fin t} (huv : u ≠ v) {y : List (IPair t)}
    (hy : ∀ p ∈ y, AboutPair u v p) {a b : ℝ} (ha : 0 ≤ a) (hb : 0 ≤ b)
    (hab : ∀ f : ℝ → ℝ, (y.map fun p => f (answerSign v p)).sum = a * f 1 + b * f (-1))
    {cov : CovFn d} {Y : Fin t → Pt d} {K : Matrix (Fin t) (Fin t) ℝ} {m : Fin t → ℝ}
    (hr : PairsInRange sigma y m)
    {invert : Matrix (Fin t) (Fin t) ℝ → Option (Matrix (Fin t) (Fin t) ℝ)} (hinv : InvertsInvertible invert)
    {X : Fin n → Pt d} {r : GPPred n} (h : prefGpPredict cov Y K (prefW sigma y m) m invert X = .ok r)
    {Ks : Matrix (Fin n) (Fin t) ℝ} {Kss : Matrix (Fin n) (Fin n) ℝ} (h1 : cov _ _ X Y = .ok Ks)
    (h2 : cov _ _ X X = .ok Kss) (i j : Fin n) {P : ℝ}
    (hP : P = answersInfo a b ((m v - m u) / (Real.sqrt 2 * sigma)) / (Real.sqrt 2 * sigma) ^ 2) :
    r.cov i j = Kss i j - P / (1 + P * (K v v - K v u - (K u v - K u u))) *
      ((Ks i v - Ks i u) * (Ks j v - Ks j u)) := by
  obtain ⟨Ks', Kss', tmp, h1', h2', hK, hi, hcov, -, -⟩ := prefGpPredict_inv h
  rw [h1] at h1'
  rw [h2] at h2'
  obtain rfl := Except.ok.inj h1'
  obtain rfl := Except.ok.inj h2'
  have hpsd := (C37_W_psd sigma hs.ne' y m hr).1
  have hu := (laplace_reduction hK (hK.inv.add_posSemidef hpsd)).1
  rw [hinv _ hu] at hi
  obtain rfl := Option.some.inj hi
  have hP0 : 0 ≤ P := by
    rw [hP, answersInfo]
    have := mul_nonneg ha (mcurv_pos ((m v - m u) / (Real.sqrt 2 * sigma))).le
    have := mul_nonneg hb (mcurv_pos (-((m v - m u) / (Real.sqrt 2 * sigma)))).le
    positivity
  have hV := var_diff_pos hK huv
  set V := K v v - K v u - (K u v - K u u) with hVdef
  have hne : 1 + P * V ≠ 0 := by positivity
  set D := vecMulVec (diffVec u v) (diffVec u v) with hD
  have hW : prefW sigma y m = P • D := by rw [hP]; exact about_W huv hy hab hr
  have hDKD : D * K * D = V • D := by
    rw [hD, vecMulVec_mul, vecMulVec_mul_vecMulVec, ← dotProduct_mulVec, diffVec_quad, ← hVdef]
    ext i j
    simp [vecMulVec_apply]
    try ring
  have hM : (1 + prefW sigma y m * K)⁻¹ * prefW sigma y m = (P / (1 + P * V)) • D := by
    have : (1 + prefW sigma y m * K) * ((P / (1 + P * V)) • D) = prefW sigma y m := by
      rw [hW, Matrix.add_mul, Matrix.one_mul, Matrix.mul_smul, Matrix.smul_mul, Matrix.smul_mul, hDKD, smul_smul,
        smul_smul, ← add_smul]
      congr 1
      field_simp
    calc (1 + prefW sigma y m * K)⁻¹ * prefW sigma y m =
          (1 + prefW sigma y m * K)⁻¹ * ((1 + prefW sigma y m * K) * ((P / (1 + P * V)) • D)) := by rw [this]
      _ = _ := by rw [← Matrix.mul_assoc, nonsing_inv_mul _ hu, Matrix.one_mul]
  have hdot : ∀ w : Fin t → ℝ, w ⬝ᵥ diffVec u v = w v - w u := by
    intro w
    simp [diffVec, dotProduct_sub]
  rw [hcov, Matrix.mul_assoc Ks, ← Matrix.mul_assoc _ (prefW sigma y m), hM, Matrix.smul_mul, Matrix.mul_smul,
    Matrix.sub_apply, Matrix.smul_apply, ← Matrix.mul_assoc, hD, mul_vecMulVec, vecMulVec_mul, vecMulVec_apply, smul_eq_mul]
  congr 2
  have e1 : (Ks *ᵥ diffVec u v) i = Ks i v - Ks i u := hdot (Ks i)
  have e2 : (diffVec u v ᵥ* Ksᵀ) j = Ks j v - Ks j u := by
    rw [vecMul_transpose]
    exact hdot (Ks j)
  rw [e1, e2]

theorem shrink_lt {P P' V : ℝ} (hP : 0 ≤ P) (hV : 0 < V) (h : P < P') :
    P / (1 + P * V) < P' / (1 + P' * V) := by
  have : 0 < P' := lt_of_le_of_lt hP h
  rw [div_lt_div_iff₀ (by positivity) (by positivity)]
  nlinarith

end Lop
