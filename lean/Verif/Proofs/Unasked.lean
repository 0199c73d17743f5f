import Verif.Spec.Unasked
import Verif.Proofs.Renumber
import Verif.Proofs.ModeLearned
import Verif.Proofs.Data

/-! # Helper lemmas: training points nobody was asked about -/

namespace Lop

open Lop.Spec Matrix

variable {n t : Nat} (e : Fin t ↪ Fin n)

@[simp] theorem spread_at (g : Fin t → ℝ) (j : Fin t) : spread e g (e j) = g j := e.injective.extend_apply g _ j

theorem spread_off (g : Fin t → ℝ) {i : Fin n} (h : ∀ j, e j ≠ i) : spread e g i = 0 :=
  Function.extend_apply' g _ i fun ⟨j, hj⟩ => h j hj

@[simp] theorem spread_zero : spread e (0 : Fin t → ℝ) = 0 := by
  funext i
  by_cases h : ∃ j, e j = i
  · obtain ⟨j, rfl⟩ := h
    simp
  · exact spread_off e _ fun j hj => h ⟨j, hj⟩

theorem spread_ext {e : Fin t ↪ Fin n} {g : Fin t → ℝ} {G : Fin n → ℝ} (h1 : ∀ j, G (e j) = g j)
    (h2 : ∀ i, (∀ j, e j ≠ i) → G i = 0) : G = spread e g := by
  funext i
  by_cases h : ∃ j, e j = i
  · obtain ⟨j, rfl⟩ := h
    simp [h1]
  · push Not at h
    rw [spread_off e _ h, h2 i h]

@[simp] theorem spreadMat_at (W : Matrix (Fin t) (Fin t) ℝ) (i j : Fin t) : spreadMat e W (e i) (e j) = W i j := by
  simp [spreadMat]

theorem spreadMat_off (W : Matrix (Fin t) (Fin t) ℝ) {i j : Fin n} (h : (∀ a, e a ≠ i) ∨ ∀ a, e a ≠ j) :
    spreadMat e W i j = 0 := by
  rcases h with h | h
  · simp [spreadMat, spread_off e _ h]
  · have : (fun a => spread e (W a) j) = 0 := by
      funext a
      exact spread_off e _ h
    simp [spreadMat, this]

theorem spreadMat_ext {e : Fin t ↪ Fin n} {W : Matrix (Fin t) (Fin t) ℝ} {V : Matrix (Fin n) (Fin n) ℝ}
    (h1 : ∀ i j, V (e i) (e j) = W i j) (h2 : ∀ i j, ((∀ a, e a ≠ i) ∨ ∀ a, e a ≠ j) → V i j = 0) : V = spreadMat e W := by
  ext i j
  by_cases hi : ∃ a, e a = i
  · by_cases hj : ∃ a, e a = j
    · obtain ⟨a, rfl⟩ := hi
      obtain ⟨b, rfl⟩ := hj
      simp [h1]
    · push Not at hj
      rw [spreadMat_off e _ (Or.inr hj), h2 _ _ (Or.inr hj)]
  · push Not at hi
    rw [spreadMat_off e _ (Or.inl hi), h2 _ _ (Or.inl hi)]

theorem spread_update (g : Fin t → ℝ) (j : Fin t) (v : ℝ) :
    Function.update (spread e g) (e j) v = spread e (Function.update g j v) := by
  refine spread_ext (fun a => ?_) fun i hi => ?_
  · by_cases h : a = j
    · subst h
      simp
    · rw [Function.update_of_ne (fun hh => h (e.injective hh)), Function.update_of_ne h, spread_at]
  · rw [Function.update_of_ne (hi j).symm, spread_off e _ hi]

theorem addUpVec_along (l : List (Fin t × ℝ)) (M : Fin t → ℝ) :
    addUpVec (l.map fun x => (e x.1, x.2)) (spread e M) = spread e (addUpVec l M) := by
  induction l generalizing M with
  | nil => rfl
  | cons x l ih =>
    simp only [addUpVec, List.map_cons, List.foldl_cons, spread_at, spread_update] at ih ⊢
    exact ih _

theorem assignVec_along (l : List (Fin t × ℝ)) : assignVec (l.map fun x => (e x.1, x.2)) = spread e (assignVec l) := by
  have : ∀ (l : List (Fin t × ℝ)) (M : Fin t → ℝ),
      (l.map fun x => (e x.1, x.2)).foldl (fun M x => Function.update M x.1 x.2) (spread e M) =
        spread e (l.foldl (fun M x => Function.update M x.1 x.2) M) := by
    intro l
    induction l with
    | nil => exact fun _ => rfl
    | cons x l ih =>
      intro M
      simp only [List.map_cons, List.foldl_cons, spread_update]
      exact ih _
  have h := this l 0
  rw [spread_zero] at h
  exact h

theorem foldl_mat_along (f : ℝ → ℝ → ℝ) (l : List ((Fin t × Fin t) × ℝ)) (M : Fin t → Fin t → ℝ) :
    (l.map fun x => ((e x.1.1, e x.1.2), x.2)).foldl (fun M x a b => if (a, b) = x.1 then f (M a b) x.2 else M a b)
        (fun i j => spreadMat e (Matrix.of M) i j) =
      fun i j => spreadMat e (Matrix.of (l.foldl (fun M x a b => if (a, b) = x.1 then f (M a b) x.2 else M a b) M)) i j := by
  induction l generalizing M with
  | nil => rfl
  | cons x l ih =>
    simp only [List.map_cons, List.foldl_cons]
    refine Eq.trans (congrArg (fun M => List.foldl _ M _) ?_) (ih _)
    refine spreadMat_ext (V := fun a b => if (a, b) = (e x.1.1, e x.1.2) then f (spreadMat e (Matrix.of M) a b) x.2 else
      spreadMat e (Matrix.of M) a b) (fun i j => ?_) fun i j h => ?_
    · have : (e i, e j) = (e x.1.1, e x.1.2) ↔ (i, j) = x.1 := by
        rw [Prod.ext_iff, Prod.ext_iff]
        simp
      simp only [this, spreadMat_at, of_apply]
    · have hne : (i, j) ≠ (e x.1.1, e x.1.2) := by
        intro hh
        rw [Prod.ext_iff] at hh
        rcases h with h | h
        · exact h _ hh.1.symm
        · exact h _ hh.2.symm
      simp only [if_neg hne]
      exact spreadMat_off e _ h

theorem spreadMat_zero : spreadMat e (0 : Matrix (Fin t) (Fin t) ℝ) = 0 :=
  (spreadMat_ext (fun _ _ => rfl) fun _ _ _ => rfl).symm

theorem addUpMat_along (l : List ((Fin t × Fin t) × ℝ)) (M : Fin t → Fin t → ℝ) :
    addUpMat (l.map fun x => ((e x.1.1, e x.1.2), x.2)) (fun i j => spreadMat e (Matrix.of M) i j) =
      fun i j => spreadMat e (Matrix.of (addUpMat l M)) i j :=
  foldl_mat_along e (· + ·) l M

theorem zk_along (sigma : ℝ) (F : Fin n → ℝ) (p : IPair t) : zk sigma F (pairAlong e p) = zk sigma (fun j => F (e j)) p := rfl

theorem prefDerivatives_along (sigma : ℝ) (y : List (IPair t)) (F : Fin n → ℝ) :
    prefDerivatives sigma (y.map (pairAlong e)) F =
      (spreadMat e (prefDerivatives sigma y fun j => F (e j)).1, spread e (prefDerivatives sigma y fun j => F (e j)).2.1,
        (prefDerivatives sigma y fun j => F (e j)).2.2) := by
  refine Prod.ext ?_ (Prod.ext ?_ ?_)
  · simp only [prefDerivatives, prefW, addUpPairs]
    have h0 : (fun _ _ => 0 : Fin n → Fin n → ℝ) = fun i j => spreadMat e (Matrix.of fun _ _ => 0) i j :=
      (spreadMat_zero e).symm
    have h1 : ∀ W, spreadMat e W = Matrix.of fun i j => spreadMat e W i j := fun _ => rfl
    rw [h1, ← addUpMat_along, ← addUpMat_along, ← addUpMat_along, ← addUpMat_along, ← h0]
    simp only [List.map_map, Function.comp_def, zk_along]
    rfl
  · simp only [prefDerivatives, prefDerv]
    have h0 : (fun _ => 0 : Fin n → ℝ) = spread e fun _ => 0 := (spread_zero e).symm
    rw [← addUpVec_along, ← addUpVec_along, ← h0]
    simp only [List.map_map, Function.comp_def, zk_along]
    rfl
  · simp only [prefDerivatives, prefLogLik, List.map_map, Function.comp_def, zk_along]

theorem sum_spread (g : Fin t → ℝ) : ∑ i, spread e g i = ∑ j, g j := by
  have : ∑ i ∈ Finset.univ.map e, spread e g i = ∑ j, g j := by simp
  rw [← this]
  refine (Finset.sum_subset (Finset.subset_univ _) fun i _ hi => spread_off e _ fun j hj => hi ?_).symm
  simp [← hj]

theorem absDerivatives_along (s v eps : ℝ) (y : List (ℝ × Fin t)) (F : Fin n → ℝ) :
    absDerivatives s v eps (y.map fun p => (p.1, e p.2)) F =
      (fun i j => spreadMat e (Matrix.of (absDerivatives s v eps y fun j => F (e j)).1) i j,
        spread e (absDerivatives s v eps y fun j => F (e j)).2.1, (absDerivatives s v eps y fun j => F (e j)).2.2) := by
  have key : ∀ g : ℝ → ℝ → ℝ, assignVec ((y.map fun p => (p.1, e p.2)).map fun p => (p.2, g p.1 (F p.2))) =
      spread e (assignVec (y.map fun p => (p.2, g p.1 (F (e p.2))))) := by
    intro g
    rw [← assignVec_along, List.map_map, List.map_map]
    rfl
  refine Prod.ext ?_ (Prod.ext ?_ ?_)
  · refine spreadMat_ext (V := (absDerivatives s v eps (y.map fun p => (p.1, e p.2)) F).1) (fun i j => ?_) fun i j h => ?_
    · simp only [absDerivatives, assignDiag, key, spread_at, EmbeddingLike.apply_eq_iff_eq, of_apply]
    · simp only [absDerivatives, assignDiag, key]
      by_cases hij : i = j
      · subst hij
        rw [if_pos rfl, spread_off e _ (h.elim id id), neg_zero]
      · rw [if_neg hij, neg_zero]
  · simp only [absDerivatives, key]
  · simp [absDerivatives, Function.comp_def]

theorem absLogLik_along (s v eps : ℝ) (y : List (ℝ × Fin t)) (F : Fin n → ℝ) :
    absLogLik s v eps (y.map fun p => (p.1, e p.2)) F = absLogLik s v eps y fun j => F (e j) := by
  have key : assignVec ((y.map fun p => (p.1, e p.2)).map fun p => (p.2, absPy s v eps p.1 (F p.2))) =
      spread e (assignVec (y.map fun p => (p.2, absPy s v eps p.1 (F (e p.2))))) := by
    rw [← assignVec_along, List.map_map, List.map_map]
    rfl
  simp only [absLogLik, key]
  exact sum_spread e _

theorem ordLikEach_along (o : OrdHyper ℝ) (y : List (Int × Fin t)) (F : Fin n → ℝ) :
    ordLikEach o (y.map fun p => (p.1, e p.2)) F = ordLikEach o y fun j => F (e j) := by
  simp only [ordLikEach, List.any_map, Function.comp_def, List.mapM_map]

theorem assignGrid_along (l : List (Fin t × ℝ)) :
    assignGrid (l.map fun x => (e x.1, x.2)) = fun i j => spreadMat e (Matrix.of (assignGrid l)) i j := by
  have h := foldl_mat_along e (fun _ b => b) (l.zipIdx.flatMap fun (x, i) => l.zipIdx.map fun (x', j) =>
      ((x'.1, x.1), if i = j then x.2 else 0)) fun _ _ => 0
  have h0 : (fun _ _ => 0 : Fin n → Fin n → ℝ) = fun i j => spreadMat e (Matrix.of fun _ _ => 0) i j :=
    (spreadMat_zero e).symm
  rw [← h0] at h
  simp only [assignGrid]
  rw [← h]
  congr 1
  simp only [List.zipIdx_map, List.flatMap_map, List.map_flatMap, List.map_map]
  rfl

theorem ordDerivatives_along (o : OrdHyper ℝ) (eps : ℝ) (y : List (Int × Fin t)) (F : Fin n → ℝ) :
    ordDerivatives o eps (y.map fun p => (p.1, e p.2)) F =
      (ordDerivatives o eps y fun j => F (e j)).map fun r => r.map fun r =>
        (fun i j => spreadMat e (Matrix.of r.1) i j, spread e r.2.1, r.2.2) := by
  simp only [ordDerivatives, ordLikEach_along]
  cases hl : ordLikEach o y (fun j => F (e j)) with
  | error e => rfl
  | ok l =>
    simp only [bind, Except.bind, List.zip_map_left, List.mapM_map]
    have e1 : ((fun x : (Int × Fin n) × ℝ => ordDerv1 o eps (x.1.1 - 1).toNat (F x.1.2) x.2) ∘
        Prod.map (fun p : Int × Fin t => (p.1, e p.2)) id) =
        fun x => ordDerv1 o eps (x.1.1 - 1).toNat (F (e x.1.2)) x.2 := rfl
    have e2 : ∀ z : List ((Int × Fin t) × ℝ), (z.map (Prod.map (fun p : Int × Fin t => (p.1, e p.2)) id)).map
        (Prod.map (fun x => x.2) id) = (z.map (Prod.map (fun x => x.2) id)).map fun x => (e x.1, x.2) := by
      intro z
      rw [List.map_map, List.map_map]
      rfl
    rw [e1]
    cases (y.zip l).mapM fun x => ordDerv1 o eps (x.1.1 - 1).toNat (F (e x.1.2)) x.2 with
    | error e => rfl
    | ok d =>
      cases hd : d.mapM id with
      | none => simp [Except.map, pure, Except.pure, hd]
      | some d =>
        simp only [Except.map, pure, Except.pure, hd, Option.bind_some, e2, assignVec_along, assignGrid_along]
        cases List.mapM (id ∘ npLog) l <;> rfl

theorem spread_add (g h : Fin t → ℝ) : spread e (g + h) = spread e g + spread e h := by
  refine (spread_ext (fun j => ?_) fun i hi => ?_).symm
  · simp
  · simp [spread_off e _ hi]

theorem spreadMat_add (V W : Matrix (Fin t) (Fin t) ℝ) : spreadMat e (V + W) = spreadMat e V + spreadMat e W := by
  refine (spreadMat_ext (fun i j => ?_) fun i j h => ?_).symm
  · simp [Matrix.add_apply]
  · simp [Matrix.add_apply, spreadMat_off e _ h]

theorem gpDerivatives_along (P : ProbitSet) (y : TrainLabels t) (F : Fin n → ℝ) :
    gpDerivatives P (labelsAlong e y) F =
      (gpDerivatives P y fun j => F (e j)).map fun r => r.map fun d => (spreadMat e d.1, spread e d.2.1, d.2.2) := by
  have hp : pairPart P.sigma F (labelsAlong e y).pairs =
      (spreadMat e (pairPart P.sigma (fun j => F (e j)) y.pairs).1, spread e (pairPart P.sigma (fun j => F (e j)) y.pairs).2.1,
        (pairPart P.sigma (fun j => F (e j)) y.pairs).2.2) := by
    cases h : y.pairs with
    | none => simp only [labelsAlong, h, Option.map_none, pairPart, spread_zero, spreadMat_zero]
    | some l => simp only [labelsAlong, h, Option.map_some, pairPart]; exact prefDerivatives_along e P.sigma l F
  have ha : absPart P F (labelsAlong e y).abs =
      (spreadMat e (absPart P (fun j => F (e j)) y.abs).1, spread e (absPart P (fun j => F (e j)) y.abs).2.1,
        (absPart P (fun j => F (e j)) y.abs).2.2) := by
    cases h : y.abs with
    | none => simp only [labelsAlong, h, Option.map_none, absPart, spread_zero, spreadMat_zero]
    | some l => simp only [labelsAlong, h, Option.map_some, absPart, absDerivatives_along]; rfl
  have ho : ordPart P F (labelsAlong e y).ord =
      (ordPart P (fun j => F (e j)) y.ord).map fun r => r.map fun d => (spreadMat e d.1, spread e d.2.1, d.2.2) := by
    cases h : y.ord with
    | none => simp only [labelsAlong, h, Option.map_none, ordPart, Except.map, Option.map_some, spread_zero, spreadMat_zero]
    | some l =>
      simp only [labelsAlong, h, Option.map_some, ordPart, ordDerivatives_along]
      cases ordDerivatives P.ord P.ordEps l fun j => F (e j) with
      | error e => rfl
      | ok r => cases r <;> rfl
  simp only [gpDerivatives, hp, ha, ho]
  cases ordPart P (fun j => F (e j)) y.ord with
  | error e => rfl
  | ok r =>
    cases r with
    | none => rfl
    | some r => simp only [Except.map, Option.map_some, spread_add, spreadMat_add]

theorem logLikTraining_along (P : ProbitSet) (y : TrainLabels t) (F : Fin n → ℝ) :
    logLikTraining P (labelsAlong e y) F = logLikTraining P y fun j => F (e j) := by
  have hp : pairLogPart P F (labelsAlong e y).pairs = pairLogPart P (fun j => F (e j)) y.pairs := by
    cases h : y.pairs with
    | none => simp only [labelsAlong, h, Option.map_none, pairLogPart]
    | some l =>
      simp only [labelsAlong, h, Option.map_some, pairLogPart]
      exact congrArg (·.2.2) (prefDerivatives_along e P.sigma l F)
  have ha : absLogPart P F (labelsAlong e y).abs = absLogPart P (fun j => F (e j)) y.abs := by
    cases h : y.abs with
    | none => simp only [labelsAlong, h, Option.map_none, absLogPart]
    | some l => simp only [labelsAlong, h, Option.map_some, absLogPart, absLogLik_along]
  have ho : ordLogPart P F (labelsAlong e y).ord = ordLogPart P (fun j => F (e j)) y.ord := by
    cases h : y.ord with
    | none => simp only [labelsAlong, h, Option.map_none, ordLogPart]
    | some l => simp only [labelsAlong, h, Option.map_some, ordLogPart, ordLikelihood, ordLikEach_along]
  simp only [logLikTraining, hp, ha, ho]

/-- The columns of the identity that belong to the mentioned points. -/
noncomputable def pickCols : Matrix (Fin n) (Fin t) ℝ := (1 : Matrix (Fin n) (Fin n) ℝ).submatrix id e

theorem mul_pickCols {m : Nat} (M : Matrix (Fin m) (Fin n) ℝ) : M * pickCols e = M.submatrix id e := by
  ext i j
  simp [pickCols, Matrix.mul_apply, Matrix.one_apply]

theorem pickCols_mul {m : Nat} (M : Matrix (Fin n) (Fin m) ℝ) : (pickCols e)ᵀ * M = M.submatrix e id := by
  ext i j
  simp [pickCols, Matrix.mul_apply, Matrix.one_apply]

theorem pickCols_sub (K : Matrix (Fin n) (Fin n) ℝ) : (pickCols e)ᵀ * K * pickCols e = K.submatrix e e := by
  rw [pickCols_mul, mul_pickCols]
  rfl

theorem pickCols_mulVec (g : Fin t → ℝ) : pickCols e *ᵥ g = spread e g := by
  refine spread_ext (fun j => ?_) fun i hi => ?_
  · simp [pickCols, mulVec, dotProduct, Matrix.one_apply]
  · have : ∀ j, i ≠ e j := fun j => (hi j).symm
    simp [pickCols, mulVec, dotProduct, Matrix.one_apply, this]

theorem spreadMat_eq (W : Matrix (Fin t) (Fin t) ℝ) : spreadMat e W = pickCols e * W * (pickCols e)ᵀ := by
  refine (spreadMat_ext (fun i j => ?_) fun i j h => ?_).symm
  · simp [pickCols, Matrix.mul_apply, Matrix.one_apply]
  · rcases h with h | h
    · have : ∀ a, i ≠ e a := fun a => (h a).symm
      simp [pickCols, Matrix.mul_apply, Matrix.one_apply, this]
    · simp [pickCols, Matrix.mul_apply, Matrix.one_apply, h]

theorem along_det (K : Matrix (Fin n) (Fin n) ℝ) (W : Matrix (Fin t) (Fin t) ℝ) :
    (1 + spreadMat e W * K).det = (1 + W * K.submatrix e e).det := by
  rw [spreadMat_eq, ← pickCols_sub, Matrix.mul_assoc, Matrix.mul_assoc, det_one_add_mul_comm]
  simp only [Matrix.mul_assoc]

theorem along_det' (K : Matrix (Fin n) (Fin n) ℝ) (W : Matrix (Fin t) (Fin t) ℝ) :
    (1 + K * spreadMat e W).det = (1 + K.submatrix e e * W).det := by
  rw [det_one_add_mul_comm, along_det, det_one_add_mul_comm]

theorem along_push {K : Matrix (Fin n) (Fin n) ℝ} {W : Matrix (Fin t) (Fin t) ℝ}
    (h : IsUnit (1 + W * K.submatrix e e).det) :
    (1 + spreadMat e W * K)⁻¹ * pickCols e = pickCols e * (1 + W * K.submatrix e e)⁻¹ := by
  have h' : IsUnit (1 + spreadMat e W * K).det := by rw [along_det]; exact h
  have key : (1 + spreadMat e W * K) * pickCols e = pickCols e * (1 + W * K.submatrix e e) := by
    rw [spreadMat_eq, ← pickCols_sub]
    simp only [Matrix.add_mul, Matrix.mul_add, Matrix.one_mul, Matrix.mul_one, Matrix.mul_assoc]
  calc (1 + spreadMat e W * K)⁻¹ * pickCols e
      = (1 + spreadMat e W * K)⁻¹ * (pickCols e * (1 + W * K.submatrix e e)) * (1 + W * K.submatrix e e)⁻¹ := by
        rw [Matrix.mul_assoc, Matrix.mul_assoc, mul_nonsing_inv _ h, Matrix.mul_one]
    _ = pickCols e * (1 + W * K.submatrix e e)⁻¹ := by
        rw [← key, ← Matrix.mul_assoc, nonsing_inv_mul _ h', Matrix.one_mul]

theorem along_push' {K : Matrix (Fin n) (Fin n) ℝ} {W : Matrix (Fin t) (Fin t) ℝ}
    (h : IsUnit (1 + K.submatrix e e * W).det) :
    (pickCols e)ᵀ * (1 + K * spreadMat e W)⁻¹ = (1 + K.submatrix e e * W)⁻¹ * (pickCols e)ᵀ := by
  have h' : IsUnit (1 + K * spreadMat e W).det := by rw [along_det']; exact h
  have key : (pickCols e)ᵀ * (1 + K * spreadMat e W) = (1 + K.submatrix e e * W) * (pickCols e)ᵀ := by
    rw [spreadMat_eq, ← pickCols_sub]
    simp only [Matrix.add_mul, Matrix.mul_add, Matrix.one_mul, Matrix.mul_one, Matrix.mul_assoc]
  calc (pickCols e)ᵀ * (1 + K * spreadMat e W)⁻¹
      = (1 + K.submatrix e e * W)⁻¹ * ((1 + K.submatrix e e * W) * (pickCols e)ᵀ) * (1 + K * spreadMat e W)⁻¹ := by
        rw [← Matrix.mul_assoc, nonsing_inv_mul _ h, Matrix.one_mul]
    _ = (1 + K.submatrix e e * W)⁻¹ * (pickCols e)ᵀ := by
        rw [← key, Matrix.mul_assoc, Matrix.mul_assoc, mul_nonsing_inv _ h', Matrix.mul_one]

theorem guessRest_eq (K : Matrix (Fin n) (Fin n) ℝ) (f : Fin t → ℝ) :
    guessRest e K f = K *ᵥ (pickCols e *ᵥ ((K.submatrix e e)⁻¹ *ᵥ f)) := by
  rw [guessRest, ← mul_pickCols, ← mulVec_mulVec]

theorem guessRest_at {K : Matrix (Fin n) (Fin n) ℝ} (hK : K.PosDef) (f : Fin t → ℝ) (j : Fin t) :
    guessRest e K f (e j) = f j := by
  have hu : IsUnit (K.submatrix e e).det := (Matrix.isUnit_iff_isUnit_det _).1 (hK.submatrix e.injective).isUnit
  have : K.submatrix e e *ᵥ ((K.submatrix e e)⁻¹ *ᵥ f) = f := by
    rw [mulVec_mulVec, mul_nonsing_inv _ hu, one_mulVec]
  exact congrFun this j

theorem guessRest_inv {K : Matrix (Fin n) (Fin n) ℝ} (hK : K.PosDef) (f : Fin t → ℝ) :
    K⁻¹ *ᵥ guessRest e K f = spread e ((K.submatrix e e)⁻¹ *ᵥ f) := by
  have hu : IsUnit K.det := (Matrix.isUnit_iff_isUnit_det _).1 hK.isUnit
  rw [guessRest_eq, mulVec_mulVec, nonsing_inv_mul _ hu, one_mulVec, pickCols_mulVec]

theorem dot_spread (F : Fin n → ℝ) (g : Fin t → ℝ) : F ⬝ᵥ spread e g = (fun j => F (e j)) ⬝ᵥ g := by
  have : (fun i => F i * spread e g i) = spread e fun j => F (e j) * g j :=
    spread_ext (fun j => by simp) fun i hi => by simp [spread_off e _ hi]
  show ∑ i, F i * spread e g i = _
  rw [this, sum_spread]
  rfl

theorem guessRest_step (K : Matrix (Fin n) (Fin n) ℝ) (f d : Fin t → ℝ) (c : ℝ) :
    guessRest e K f - c • guessRest e K d = guessRest e K (f - c • d) := by
  simp only [guessRest, mulVec_sub, mulVec_smul]

theorem binaryLoop_order {R S S' : Type*} [Field R] [LinearOrder S] [LinearOrder S'] {g : R → S} {g' : R → S'}
    (h : ∀ a b, g' a > g' b ↔ g a > g b) (k : Nat) (mn mx : R) : binaryLoop g' k mn mx = binaryLoop g k mn mx := by
  induction k generalizing mn mx with
  | zero => rfl
  | succ k ih => simp only [binaryLoop, h, ih]

theorem likliF_along {K : Matrix (Fin n) (Fin n) ℝ} (hK : K.PosDef) (P : ProbitSet) (y : TrainLabels t) (a b : Fin t → ℝ) :
    lossValue (likliF P (labelsAlong e y) K (guessRest e K a)) > lossValue (likliF P (labelsAlong e y) K (guessRest e K b)) ↔
    lossValue (likliF P y (K.submatrix e e) a) > lossValue (likliF P y (K.submatrix e e) b) := by
  have hat : ∀ f : Fin t → ℝ, (fun j => guessRest e K f (e j)) = f := fun f => funext (guessRest_at e hK f)
  simp only [likliF, logLikTraining_along, hat, guessRest_inv e hK, dot_spread]
  cases logLikTraining P y a with
  | error _ =>
    cases logLikTraining P y b with
    | error _ => exact Iff.rfl
    | ok r => cases r <;> simp [Except.map, lossValue]
  | ok q =>
    cases q with
    | none =>
      cases logLikTraining P y b with
      | error _ => exact Iff.rfl
      | ok r => cases r <;> simp [Except.map, lossValue]
    | some q =>
      cases logLikTraining P y b with
      | error _ => simp [Except.map, lossValue]
      | ok r =>
        cases r with
        | none => simp [Except.map, lossValue]
        | some r =>
          simp only [Except.map, Option.map_some, lossValue, gt_iff_lt, WithBot.coe_lt_coe]
          constructor <;> intro h <;> linarith

theorem findModeUpdate_along {K : Matrix (Fin n) (Fin n) ℝ} (hK : K.PosDef) (P : ProbitSet) (y : TrainLabels t)
    (f : Fin t → ℝ) (hW : ∀ r, gpDerivatives P y f = .ok (some r) → IsUnit (1 + r.1 * K.submatrix e e).det) :
    findModeUpdate P (labelsAlong e y) K npInv (guessRest e K f) =
      (findModeUpdate P y (K.submatrix e e) npInv f).map fun r => r.map (guessRest e K) := by
  have hat : ∀ f : Fin t → ℝ, (fun j => guessRest e K f (e j)) = f := fun f => funext (guessRest_at e hK f)
  have hu : IsUnit K.det := (Matrix.isUnit_iff_isUnit_det _).1 hK.isUnit
  have hK₀ : (K.submatrix e e).PosDef := hK.submatrix e.injective
  have hu₀ : IsUnit (K.submatrix e e).det := (Matrix.isUnit_iff_isUnit_det _).1 hK₀.isUnit
  simp only [findModeUpdate, gpDerivatives_along, hat]
  cases hr : gpDerivatives P y f with
  | error e => rfl
  | ok r =>
    cases r with
    | none => rfl
    | some r =>
      have hw : IsUnit (1 + K.submatrix e e * r.1).det := by
        rw [det_one_add_mul_comm]
        exact hW r hr
      have hw' : IsUnit (1 + K * spreadMat e r.1).det := by rw [along_det']; exact hw
      set g := (modeGradHess (K.submatrix e e) f r).1 with hg
      have e1 : modeGradHess K (guessRest e K f) (spreadMat e r.1, spread e r.2.1, r.2.2) =
          (spread e g, -spreadMat e r.1 - K⁻¹) := by
        refine Prod.ext ?_ rfl
        simp only [modeGradHess, hg, guessRest_inv e hK]
        rw [← pickCols_mulVec, ← pickCols_mulVec, ← pickCols_mulVec, ← mulVec_sub]
      have inv : ∀ {m : Nat} {K W : Matrix (Fin m) (Fin m) ℝ}, IsUnit K.det → IsUnit (1 + K * W).det →
          npInv (-W - K⁻¹) = some (-((1 + K * W)⁻¹ * K)) := by
        intro m K W h1 h2
        have e3 : -W - K⁻¹ = -(K⁻¹ * (1 + K * W)) := by
          rw [mul_add, mul_one, ← Matrix.mul_assoc, nonsing_inv_mul _ h1, one_mul]
          abel
        have e4 : (-W - K⁻¹) * -((1 + K * W)⁻¹ * K) = 1 := by
          rw [e3, neg_mul_neg, Matrix.mul_assoc, ← Matrix.mul_assoc (1 + K * W), mul_nonsing_inv _ h2, one_mul,
            nonsing_inv_mul _ h1]
        have h3 : IsUnit (-W - K⁻¹).det := Matrix.isUnit_det_of_right_inverse e4
        rw [npInv, if_pos h3, inv_eq_right_inv e4]
      have e2 : descentDir (spread e g) (-spreadMat e r.1 - K⁻¹) npInv =
          guessRest e K (descentDir g (modeGradHess (K.submatrix e e) f r).2 npInv) := by
        simp only [descentDir, modeGradHess, inv hu hw', inv hu₀ hw]
        have hs : Kᵀ = K := by simpa using hK.1.eq
        have hs₀ : (K.submatrix e e)ᵀ = K.submatrix e e := by simpa using hK₀.1.eq
        set b := g ᵥ* (1 + K.submatrix e e * r.1)⁻¹ with hb
        have e5 : g ᵥ* -((1 + K.submatrix e e * r.1)⁻¹ * K.submatrix e e) = -(K.submatrix e e *ᵥ b) := by
          rw [vecMul_neg, ← vecMul_vecMul, ← hb]
          conv_lhs => rw [← hs₀]
          rw [vecMul_transpose]
        have e6 : spread e g ᵥ* -((1 + K * spreadMat e r.1)⁻¹ * K) = -(K *ᵥ (pickCols e *ᵥ b)) := by
          rw [← pickCols_mulVec, vecMul_neg, ← vecMul_vecMul]
          have e7 : (pickCols e *ᵥ g) ᵥ* (1 + K * spreadMat e r.1)⁻¹ = pickCols e *ᵥ b := by
            rw [← vecMul_transpose, vecMul_vecMul, along_push' e hw, ← vecMul_vecMul, vecMul_transpose]
          rw [e7]
          conv_lhs => rw [← hs]
          rw [vecMul_transpose]
        rw [e5, e6, guessRest_eq, mulVec_neg, mulVec_neg, mulVec_neg,
          mulVec_mulVec b (K.submatrix e e)⁻¹, nonsing_inv_mul _ hu₀, one_mulVec]
      simp only [Except.map, bind, Except.bind, Option.map_some, e1, newtonUpdate, e2, guessRest_step, binarySearch,
        ← hg]
      rw [binaryLoop_order fun a b => likliF_along e hK P y _ _]
      rfl

theorem predict_along {d m : Nat} {cov : CovFn d} {Y : Fin n → Pt d} {K : Matrix (Fin n) (Fin n) ℝ} (hK : K.PosDef)
    (W : Matrix (Fin t) (Fin t) ℝ) (f : Fin t → ℝ) {X : Fin m → Pt d} {Ks : Matrix (Fin m) (Fin n) ℝ}
    (h : cov _ _ X Y = .ok Ks) (h' : cov _ _ X (fun j => Y (e j)) = .ok (Ks.submatrix id e)) :
    prefGpPredict cov Y K (spreadMat e W) (guessRest e K f) npInv X =
      prefGpPredict cov (fun j => Y (e j)) (K.submatrix e e) W f npInv X := by
  simp only [prefGpPredict, h, h', bind, Except.bind]
  cases cov m m X X with
  | error e => rfl
  | ok Kss =>
    simp only [laplacePredict]
    rw [if_pos hK, if_pos (hK.submatrix e.injective)]
    by_cases hu : IsUnit (1 + W * K.submatrix e e).det
    · have hu' : IsUnit (1 + spreadMat e W * K).det := by rw [along_det]; exact hu
      have e1 : Ks * (1 + spreadMat e W * K)⁻¹ * (spreadMat e W * Ksᵀ) =
          Ks.submatrix id e * (1 + W * K.submatrix e e)⁻¹ * (W * (Ks.submatrix id e)ᵀ) := by
        have : spreadMat e W * Ksᵀ = pickCols e * (W * (Ks * pickCols e)ᵀ) := by
          rw [spreadMat_eq, transpose_mul]
          simp only [Matrix.mul_assoc]
        rw [this, ← Matrix.mul_assoc, Matrix.mul_assoc Ks, along_push e hu, mul_pickCols, ← Matrix.mul_assoc Ks, mul_pickCols]
      have e2 : Ks *ᵥ (K⁻¹ *ᵥ guessRest e K f) = Ks.submatrix id e *ᵥ ((K.submatrix e e)⁻¹ *ᵥ f) := by
        rw [guessRest_inv e hK, ← pickCols_mulVec, mulVec_mulVec, mul_pickCols]
      simp only [npInv, if_pos hu, if_pos hu', e1, e2]
    · have hu' : ¬ IsUnit (1 + spreadMat e W * K).det := by rw [along_det]; exact hu
      simp only [npInv, if_neg hu, if_neg hu']

theorem pairGradV_along (sigma : ℝ) (y : List (IPair t)) (m : Fin n → ℝ) :
    pairGradV sigma (y.map (pairAlong e)) m = spread e (pairGradV sigma y fun j => m (e j)) := by
  have hp : ∀ p : IPair t, pairPull sigma m (pairAlong e p) = pairPull sigma (fun j => m (e j)) p := fun p => rfl
  refine spread_ext (fun j => ?_) fun i hi => ?_
  · simp only [pairGradV, List.map_map, Function.comp_def, hp]
    simp [pairAlong]
  · have h1 : ∀ p : IPair t, i ≠ (pairAlong e p).v := fun p => (hi _).symm
    have h2 : ∀ p : IPair t, i ≠ (pairAlong e p).u := fun p => (hi _).symm
    simp [pairGradV, List.map_map, Function.comp_def, h1, h2]

theorem isMode_along {sigma : ℝ} {y : List (IPair t)} {K : Matrix (Fin n) (Fin n) ℝ} (hK : K.PosDef) {m : Fin n → ℝ} :
    IsMode sigma (y.map (pairAlong e)) K m ↔
      IsMode sigma y (K.submatrix e e) (fun j => m (e j)) ∧ m = guessRest e K fun j => m (e j) := by
  have hK₀ : (K.submatrix e e).PosDef := hK.submatrix e.injective
  have hu₀ : IsUnit (K.submatrix e e).det := (Matrix.isUnit_iff_isUnit_det _).1 hK₀.isUnit
  rw [isMode_iff_fixed hK, isMode_iff_fixed hK₀, pairGradV_along, ← pickCols_mulVec]
  set g := pairGradV sigma y fun j => m (e j) with hg
  have key : guessRest e K (K.submatrix e e *ᵥ g) = K *ᵥ (pickCols e *ᵥ g) := by
    rw [guessRest_eq, mulVec_mulVec g, nonsing_inv_mul _ hu₀, one_mulVec]
  constructor
  · intro h
    have h1 : (fun j => m (e j)) = K.submatrix e e *ᵥ g := by
      have : (fun j => (K *ᵥ (pickCols e *ᵥ g)) (e j)) = K.submatrix e e *ᵥ g := by
        rw [mulVec_mulVec, mul_pickCols]
        rfl
      rw [← this, ← h]
    exact ⟨h1, by rw [h1, key]; exact h⟩
  · rintro ⟨h1, h2⟩
    rw [h1, key] at h2
    exact h2

theorem linDerivatives_along {d : Nat} (P : ProbitSet) (y : TrainLabels t) (X : Matrix (Fin n) (Fin d) ℝ) (w : Fin d → ℝ) :
    linDerivatives P (labelsAlong e y) X w = linDerivatives P y (X.submatrix e id) w := by
  have hv : linValues (X.submatrix e id) w = fun j => linValues X w (e j) := rfl
  simp only [linDerivatives, gpDerivatives_along, hv]
  cases gpDerivatives P y fun j => linValues X w (e j) with
  | error e => rfl
  | ok r =>
    cases r with
    | none => rfl
    | some r =>
      have e1 : Xᵀ * spreadMat e r.1 * X = (X.submatrix e id)ᵀ * r.1 * X.submatrix e id := by
        rw [← pickCols_mul, spreadMat_eq, transpose_mul, transpose_transpose]
        simp only [Matrix.mul_assoc]
      have e2 : spread e r.2.1 ᵥ* X = r.2.1 ᵥ* X.submatrix e id := by
        rw [← pickCols_mul, ← vecMul_vecMul, vecMul_transpose, pickCols_mulVec]
      simp only [Except.map, Option.map_some, e1, e2]

theorem keptPts_map {P Q : Type*} (keep : Nat → Bool) (f : P → Q) (X : List P) :
    keptPts keep (X.map f) = (keptPts keep X).map f := by
  simp only [keptPts, List.zipIdx_map, List.filter_map, List.map_map]
  rfl

/-- The rows that `remove_without_reference` keeps, as a list of the old row numbers. -/
def keptRows (keep : Nat → Bool) (n : Nat) : List (Fin n) := keptPts keep (List.finRange n)

theorem keptRows_points {P : Type*} (keep : Nat → Bool) (X : List P) :
    keptPts keep X = (keptRows keep X.length).map X.get := by
  rw [keptRows, ← keptPts_map]
  congr 1
  simp

theorem keptRows_mono (keep : Nat → Bool) (n : Nat) : (keptRows keep n).Pairwise (· < ·) := by
  have h : (keptRows keep n).Sublist (List.finRange n) := by
    have := (List.filter_sublist (l := (List.finRange n).zipIdx) (p := fun q => keep q.2)).map (·.1)
    rw [List.zipIdx_map_fst] at this
    exact this
  exact (List.pairwise_lt_finRange n).sublist h

theorem keptRows_pos {keep : Nat → Bool} {n : Nat} (i : Fin n) (h : keep i = true) :
    (keptRows keep n)[(List.range i).countP keep]? = some i := by
  rw [keptRows, keptPts_get keep (List.finRange n) i (by simp) h]
  simp

theorem keptRows_keep {keep : Nat → Bool} {n : Nat} {i : Fin n} (h : i ∈ keptRows keep n) : keep i = true := by
  rw [keptRows, keptPts_eq_filterMap] at h
  obtain ⟨a, ha, hai⟩ := List.mem_filterMap.1 h
  rw [List.mem_filter] at ha
  have hlt : a < n := by simpa using ha.1
  have : i = ⟨a, hlt⟩ := by
    rw [List.getElem?_eq_getElem (by simpa using hlt)] at hai
    simpa using hai.symm
  rw [this]
  exact ha.2

end Lop
