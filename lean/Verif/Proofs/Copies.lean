import Verif.Spec.Copies
import Verif.Proofs.Unasked
import Verif.Proofs.AgainCov
import Verif.Proofs.Again

/-! # Helper lemmas: an item that is stored several times -/

namespace Lop

open Lop.Spec Matrix

variable {n t d m : Nat}

theorem quad_prefW (sigma : ℝ) (y : List (IPair n)) (F : Fin n → ℝ) (X : Matrix (Fin n) (Fin d) ℝ) (a b : Fin d) :
    (Xᵀ * prefW sigma y F * X) a b = (y.map fun p => (p.dk : ℝ) ^ 2 * isqrt2sig sigma ^ 2 *
      (zk sigma F p * pdfCdfRatio (zk sigma F p) + pdfCdfRatio2 (zk sigma F p)) *
        ((X p.v a - X p.u a) * (X p.v b - X p.u b))).sum := by
  simp only [mul_apply, transpose_apply, prefW_apply]
  simp only [← List.sum_map_mul_left, sum_finset_list, sum_map_mul, List.map_map, Function.comp_def]
  refine sum_map_congr fun p _ => ?_
  rw [← sum_inc_mul p (fun i => X i a), ← sum_inc_mul p (fun i => X i b), Finset.sum_mul_sum, Finset.sum_comm,
    Finset.mul_sum]
  refine Finset.sum_congr rfl fun i _ => ?_
  rw [Finset.sum_mul, Finset.mul_sum]
  exact Finset.sum_congr rfl fun j _ => by ring

theorem vec_prefDerv (sigma : ℝ) (y : List (IPair n)) (F : Fin n → ℝ) (X : Matrix (Fin n) (Fin d) ℝ) (b : Fin d) :
    (prefDerv sigma y F ᵥ* X) b = (y.map fun p => (p.dk * pdfCdfRatio (zk sigma F p) * isqrt2sig sigma) *
      (X p.v b - X p.u b)).sum := by
  simp only [vecMul, dotProduct, prefDerv_apply, sum_map_mul, sum_finset_list]
  refine sum_map_congr fun p _ => ?_
  rw [← sum_inc_mul p (fun i => X i b), Finset.mul_sum]
  exact Finset.sum_congr rfl fun j _ => by ring

theorem linDerivatives_copies (P : ProbitSet) (y : List (IPair n)) (items : Fin n → Fin t) (X : Matrix (Fin t) (Fin d) ℝ)
    (w : Fin d → ℝ) :
    linDerivatives P (onlyPairs y) (X.submatrix items id) w = linDerivatives P (onlyPairs (y.map (renamed items))) X w := by
  have hv : linValues (X.submatrix items id) w = fun i => linValues X w (items i) := rfl
  have hz : ∀ p : IPair n, zk P.sigma (fun i => linValues X w (items i)) p =
      zk P.sigma (linValues X w) (renamed items p) := fun _ => rfl
  simp only [linDerivatives, gpDerivatives, onlyPairs, ordPart, pairPart, absPart, Except.map, Option.map_some, hv,
    add_zero, prefDerivatives]
  congr 3
  · ext a b
    rw [quad_prefW, quad_prefW, List.map_map]
    rfl
  · congr 1
    · ext b
      rw [vec_prefDerv, vec_prefDerv, List.map_map]
      rfl
    · simp only [prefLogLik, List.map_map, Function.comp_def, hz]

theorem itemPull_sum (sigma : ℝ) (y : List (IPair n)) (F : Fin n → ℝ) (items : Fin n → Fin t) (e : Fin t → ℝ) :
    ∑ j, e j * itemPull sigma y F items j = (fun i => e (items i)) ⬝ᵥ pairGradV sigma y F := by
  rw [dot_pairGradV]
  simp only [itemPull, ← List.sum_map_mul_left, sum_finset_list, List.map_map, Function.comp_def]
  refine sum_map_congr fun p _ => ?_
  have : ∀ x, e x * (pairPull sigma F p * p.dk * ((if items p.v = x then 1 else 0) - (if items p.u = x then 1 else 0))) =
      pairPull sigma F p * p.dk * ((if items p.v = x then e x else 0) - (if items p.u = x then e x else 0)) := by
    intro x
    split_ifs <;> ring
  simp only [this, ← Finset.mul_sum, Finset.sum_sub_distrib, Finset.sum_ite_eq, Finset.mem_univ, if_true]

theorem itemPull_id (sigma : ℝ) (y : List (IPair n)) (F : Fin n → ℝ) (i : Fin n) :
    itemPull sigma y F id i = pairGradV sigma y F i := by
  simp only [itemPull, pairGradV, id, eq_comm]

theorem predict_inv {cov : CovFn d} {Y : Fin t → Pt d} {K W : Matrix (Fin t) (Fin t) ℝ} {F : Fin t → ℝ}
    {invert : Matrix (Fin t) (Fin t) ℝ → Option (Matrix (Fin t) (Fin t) ℝ)} {X : Fin m → Pt d} {r : GPPred m}
    (h : prefGpPredict cov Y K W F invert X = .ok r) :
    ∃ Ks, cov _ _ X Y = .ok Ks ∧ K.PosDef ∧ r.mu = Ks *ᵥ (K⁻¹ *ᵥ F) := by
  unfold prefGpPredict at h
  cases h1 : cov _ _ X Y with
  | error e => rw [h1] at h; simp [bind, Except.bind] at h
  | ok Ks =>
    cases h2 : cov _ _ X X with
    | error e => rw [h1] at h; simp [bind, Except.bind, h2] at h
    | ok Kss =>
      rw [h1] at h
      simp only [bind, Except.bind, h2] at h
      by_cases hK : K.PosDef
      · rw [laplacePredict, if_pos hK] at h
        cases h3 : invert (1 + W * K) with
        | none => rw [h3] at h; simp at h
        | some tmp =>
          rw [h3] at h
          simp only [Except.ok.injEq] at h
          exact ⟨Ks, rfl, hK, by rw [← h]⟩
      · rw [laplacePredict, if_neg hK] at h
        simp at h

/-- Without a Cholesky factor the start vector is stored. -/
theorem singular_fit {K : Matrix (Fin (n + 1)) (Fin (n + 1)) ℝ} (hK : ¬ K.PosDef) (o : ModeOpts) (P : ProbitSet)
    (y : TrainLabels (n + 1))
    (invert : Matrix (Fin (n + 1)) (Fin (n + 1)) ℝ → Option (Matrix (Fin (n + 1)) (Fin (n + 1)) ℝ))
    (F0 : Fin (n + 1) → ℝ) :
    findMode o P y K invert F0 = (gpDerivatives P y F0).map fun D => ⟨some F0, 0, D⟩ := by
  classical
  have hgo : (open Classical in decide K.PosDef) = false := decide_eq_false hK
  unfold findMode
  rw [hgo]
  simp [findModeLoop, bind, Except.bind]

theorem singular_predict {cov : CovFn d} {Y : Fin t → Pt d} {K : Matrix (Fin t) (Fin t) ℝ} (hK : ¬ K.PosDef)
    (W : Matrix (Fin t) (Fin t) ℝ) (F : Fin t → ℝ)
    (invert : Matrix (Fin t) (Fin t) ℝ → Option (Matrix (Fin t) (Fin t) ℝ)) (X : Fin m → Pt d)
    {Ks Kss} (h1 : cov _ _ X Y = .ok Ks) (h2 : cov _ _ X X = .ok Kss) :
    prefGpPredict cov Y K W F invert X = .error .valueError := by
  unfold prefGpPredict
  rw [h1]
  simp only [bind, Except.bind, h2]
  exact if_neg hK

/-- More points than features: the matrix of a linear kernel is singular. -/
theorem linear_singular (s b c : ℝ) (Y : Fin n → Pt d) (hn : d + 1 < n) {K : Matrix (Fin n) (Fin n) ℝ}
    (hK : kcov (.leaf (.linear s b c) : KExpr ℝ (Pt d)) _ _ Y Y = .ok K) : ¬ K.PosDef := by
  intro hp
  let A : Matrix (Fin d ⊕ Unit) (Fin n) ℝ := Matrix.of fun k i => Sum.elim (fun k => Y i k - c) (fun _ => 1) k
  have hker : A.mulVecLin.ker ≠ ⊥ := LinearMap.ker_ne_bot_of_finrank_lt (by simp; omega)
  obtain ⟨v, hv, hv0⟩ := (Submodule.ne_bot_iff _).mp hker
  have hv' : A *ᵥ v = 0 := hv
  have h0 : ∑ i, v i = 0 := by
    have := congrFun hv' (.inr ())
    simpa [A, mulVec, dotProduct] using this
  have h1 : ∀ k, ∑ i, (Y i k - c) * v i = 0 := by
    intro k
    have := congrFun hv' (.inl k)
    simpa [A, mulVec, dotProduct] using this
  simp only [kcov, KExpr.cov, KLeaf.cov, Except.ok.injEq] at hK
  have : K *ᵥ v = 0 := by
    funext i
    rw [← hK]
    simp only [mulVec, dotProduct, of_apply, add_mul, Finset.sum_add_distrib, Pi.zero_apply, ← Finset.mul_sum, h0, mul_zero,
      zero_add, mul_assoc, Finset.sum_mul]
    rw [Finset.sum_comm]
    simp only [← Finset.mul_sum, h1, mul_zero, Finset.sum_const_zero]
  have hpos := hp.dotProduct_mulVec_pos hv0
  rw [this] at hpos
  simp at hpos

end Lop
