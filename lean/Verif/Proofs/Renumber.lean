import Verif.Spec.Renumber
import Verif.Proofs.GPSeq
import Verif.Proofs.PrefProbit

/-! # Helper lemmas: numbering of the training points -/

namespace Lop

open Lop.Spec Matrix

variable {n : Nat} (σ : Equiv.Perm (Fin n))

theorem matrixTo_eq (M : Matrix (Fin n) (Fin n) ℝ) : matrixTo σ M = M.submatrix σ.symm σ.symm := rfl

theorem valuesTo_eq {α : Type*} (F : Fin n → α) : valuesTo σ F = F ∘ σ.symm := rfl

@[simp] theorem valuesTo_perm {α : Type*} (F : Fin n → α) (i : Fin n) : valuesTo σ F (σ i) = F i := by simp [valuesTo]

theorem addUpVec_to (l : List (Fin n × ℝ)) (M : Fin n → ℝ) :
    addUpVec (l.map fun e => (σ e.1, e.2)) (valuesTo σ M) = valuesTo σ (addUpVec l M) := by
  induction l generalizing M with
  | nil => rfl
  | cons e l ih =>
    simp only [addUpVec, List.map_cons, List.foldl_cons] at ih ⊢
    rw [← ih]
    congr 1
    funext i
    by_cases h : i = σ e.1
    · subst h
      simp
    · have h2 : σ.symm i ≠ e.1 := fun hh => h (by rw [← hh]; simp)
      simp [valuesTo, Function.update_of_ne h, Function.update_of_ne h2]

theorem assignVec_to (l : List (Fin n × ℝ)) :
    assignVec (l.map fun e => (σ e.1, e.2)) = valuesTo σ (assignVec l) := by
  have : ∀ (l : List (Fin n × ℝ)) (M : Fin n → ℝ),
      (l.map fun e => (σ e.1, e.2)).foldl (fun M e => Function.update M e.1 e.2) (valuesTo σ M) =
        valuesTo σ (l.foldl (fun M e => Function.update M e.1 e.2) M) := by
    intro l
    induction l with
    | nil => exact fun _ => rfl
    | cons e l ih =>
      intro M
      simp only [List.map_cons, List.foldl_cons]
      rw [← ih]
      congr 1
      funext i
      by_cases h : i = σ e.1
      · subst h
        simp
      · have h2 : σ.symm i ≠ e.1 := fun hh => h (by rw [← hh]; simp)
        simp [valuesTo, Function.update_of_ne h, Function.update_of_ne h2]
  exact this l fun _ => 0

theorem foldl_mat_to (f : ℝ → ℝ → ℝ) (l : List ((Fin n × Fin n) × ℝ)) (M : Fin n → Fin n → ℝ) :
    (l.map fun e => ((σ e.1.1, σ e.1.2), e.2)).foldl (fun M e a b => if (a, b) = e.1 then f (M a b) e.2 else M a b)
        (fun i j => M (σ.symm i) (σ.symm j)) =
      fun i j => l.foldl (fun M e a b => if (a, b) = e.1 then f (M a b) e.2 else M a b) M (σ.symm i) (σ.symm j) := by
  induction l generalizing M with
  | nil => rfl
  | cons e l ih =>
    simp only [List.map_cons, List.foldl_cons]
    rw [← ih]
    congr 1
    funext i j
    have : (i, j) = (σ e.1.1, σ e.1.2) ↔ (σ.symm i, σ.symm j) = e.1 := by
      rw [Prod.ext_iff, Prod.ext_iff]
      simp [Equiv.symm_apply_eq]
    simp only [this]

theorem addUpMat_to (l : List ((Fin n × Fin n) × ℝ)) (M : Fin n → Fin n → ℝ) :
    addUpMat (l.map fun e => ((σ e.1.1, σ e.1.2), e.2)) (fun i j => M (σ.symm i) (σ.symm j)) =
      fun i j => addUpMat l M (σ.symm i) (σ.symm j) := foldl_mat_to σ (· + ·) l M

theorem zk_to (sigma : ℝ) (F : Fin n → ℝ) (p : IPair n) : zk sigma (valuesTo σ F) (pairTo σ p) = zk sigma F p := by
  simp [zk, pairTo]

theorem prefDerivatives_to (sigma : ℝ) (y : List (IPair n)) (F : Fin n → ℝ) :
    prefDerivatives sigma (y.map (pairTo σ)) (valuesTo σ F) =
      (matrixTo σ (prefDerivatives sigma y F).1, valuesTo σ (prefDerivatives sigma y F).2.1,
        (prefDerivatives sigma y F).2.2) := by
  refine Prod.ext ?_ (Prod.ext ?_ ?_)
  · simp only [prefDerivatives, prefW, addUpPairs, matrixTo]
    congr 1
    have h0 : (fun _ _ => 0 : Fin n → Fin n → ℝ) = fun i j => (fun _ _ => 0 : Fin n → Fin n → ℝ) (σ.symm i) (σ.symm j) := rfl
    simp only [of_apply]
    rw [← addUpMat_to σ, ← addUpMat_to σ, ← addUpMat_to σ, ← addUpMat_to σ]
    simp only [List.map_map, Function.comp_def, zk_to]
    rfl
  · simp only [prefDerivatives, prefDerv]
    rw [← addUpVec_to σ, ← addUpVec_to σ]
    simp only [List.map_map, Function.comp_def, zk_to]
    rfl
  · simp [prefDerivatives, prefLogLik, Function.comp_def, zk_to]

theorem absDerivatives_to (s v eps : ℝ) (y : List (ℝ × Fin n)) (F : Fin n → ℝ) :
    absDerivatives s v eps (y.map fun p => (p.1, σ p.2)) (valuesTo σ F) =
      (fun i j => (absDerivatives s v eps y F).1 (σ.symm i) (σ.symm j), valuesTo σ (absDerivatives s v eps y F).2.1,
        (absDerivatives s v eps y F).2.2) := by
  have key : ∀ g : ℝ → ℝ → ℝ, assignVec ((y.map fun p => (p.1, σ p.2)).map fun p => (p.2, g p.1 (valuesTo σ F p.2))) =
      valuesTo σ (assignVec (y.map fun p => (p.2, g p.1 (F p.2)))) := by
    intro g
    rw [← assignVec_to, List.map_map, List.map_map]
    simp [Function.comp_def]
  refine Prod.ext ?_ (Prod.ext ?_ ?_)
  · funext i j
    simp only [absDerivatives, assignDiag, key, EmbeddingLike.apply_eq_iff_eq]
    rfl
  · simp only [absDerivatives, key]
  · simp [absDerivatives, Function.comp_def]

theorem absLogLik_to (s v eps : ℝ) (y : List (ℝ × Fin n)) (F : Fin n → ℝ) :
    absLogLik s v eps (y.map fun p => (p.1, σ p.2)) (valuesTo σ F) = absLogLik s v eps y F := by
  have key : assignVec ((y.map fun p => (p.1, σ p.2)).map fun p => (p.2, absPy s v eps p.1 (valuesTo σ F p.2))) =
      valuesTo σ (assignVec (y.map fun p => (p.2, absPy s v eps p.1 (F p.2)))) := by
    rw [← assignVec_to, List.map_map, List.map_map]
    simp [Function.comp_def]
  simp only [absLogLik, key]
  exact Equiv.sum_comp σ.symm (assignVec (y.map fun p => (p.2, absPy s v eps p.1 (F p.2))))

theorem ordLikEach_to (o : OrdHyper ℝ) (y : List (Int × Fin n)) (F : Fin n → ℝ) :
    ordLikEach o (y.map fun p => (p.1, σ p.2)) (valuesTo σ F) = ordLikEach o y F := by
  simp only [ordLikEach, List.any_map, Function.comp_def, List.mapM_map, valuesTo_perm]

theorem assignGrid_to (l : List (Fin n × ℝ)) :
    assignGrid (l.map fun e => (σ e.1, e.2)) = fun i j => assignGrid l (σ.symm i) (σ.symm j) := by
  have h := foldl_mat_to σ (fun _ b => b) (l.zipIdx.flatMap fun (e, i) => l.zipIdx.map fun (e', j) =>
      ((e'.1, e.1), if i = j then e.2 else 0)) fun _ _ => 0
  simp only [assignGrid]
  rw [← h]
  congr 1
  simp only [List.zipIdx_map, List.flatMap_map, List.map_flatMap, List.map_map]
  rfl

theorem ordDerivatives_to (o : OrdHyper ℝ) (eps : ℝ) (y : List (Int × Fin n)) (F : Fin n → ℝ) :
    ordDerivatives o eps (y.map fun p => (p.1, σ p.2)) (valuesTo σ F) =
      (ordDerivatives o eps y F).map fun r => r.map fun r =>
        (fun i j => r.1 (σ.symm i) (σ.symm j), valuesTo σ r.2.1, r.2.2) := by
  simp only [ordDerivatives, ordLikEach_to]
  cases hl : ordLikEach o y F with
  | error e => rfl
  | ok l =>
    simp only [bind, Except.bind, List.zip_map_left, List.mapM_map]
    have e1 : ((fun x : (Int × Fin n) × ℝ => ordDerv1 o eps (x.1.1 - 1).toNat (valuesTo σ F x.1.2) x.2) ∘
        Prod.map (fun p : Int × Fin n => (p.1, σ p.2)) id) =
        fun x => ordDerv1 o eps (x.1.1 - 1).toNat (F x.1.2) x.2 := by
      funext x
      simp
    have e2 : ∀ z : List ((Int × Fin n) × ℝ), (z.map (Prod.map (fun p : Int × Fin n => (p.1, σ p.2)) id)).map
        (Prod.map (fun x => x.2) id) = (z.map (Prod.map (fun x => x.2) id)).map fun e => (σ e.1, e.2) := by
      intro z
      rw [List.map_map, List.map_map]
      rfl
    rw [e1]
    cases (y.zip l).mapM fun x => ordDerv1 o eps (x.1.1 - 1).toNat (F x.1.2) x.2 with
    | error e => rfl
    | ok d =>
      cases hd : d.mapM id with
      | none => simp [Except.map, pure, Except.pure, hd]
      | some d =>
        simp only [Except.map, pure, Except.pure, hd, Option.bind_some, e2, assignVec_to, assignGrid_to]
        cases List.mapM (id ∘ npLog) l <;> rfl

theorem gpDerivatives_to (P : ProbitSet) (y : TrainLabels n) (F : Fin n → ℝ) :
    gpDerivatives P (labelsTo σ y) (valuesTo σ F) =
      (gpDerivatives P y F).map fun r => r.map fun d => (matrixTo σ d.1, valuesTo σ d.2.1, d.2.2) := by
  have hp : pairPart P.sigma (valuesTo σ F) (labelsTo σ y).pairs =
      (matrixTo σ (pairPart P.sigma F y.pairs).1, valuesTo σ (pairPart P.sigma F y.pairs).2.1,
        (pairPart P.sigma F y.pairs).2.2) := by
    cases h : y.pairs with
    | none => simp only [labelsTo, h, Option.map_none, pairPart]; rfl
    | some l => simp only [labelsTo, h, Option.map_some, pairPart]; exact prefDerivatives_to σ P.sigma l F
  have ha : absPart P (valuesTo σ F) (labelsTo σ y).abs =
      (matrixTo σ (absPart P F y.abs).1, valuesTo σ (absPart P F y.abs).2.1, (absPart P F y.abs).2.2) := by
    cases h : y.abs with
    | none => simp only [labelsTo, h, Option.map_none, absPart]; rfl
    | some l => simp only [labelsTo, h, Option.map_some, absPart, absDerivatives_to]; rfl
  have ho : ordPart P (valuesTo σ F) (labelsTo σ y).ord =
      (ordPart P F y.ord).map fun r => r.map fun d => (matrixTo σ d.1, valuesTo σ d.2.1, d.2.2) := by
    cases h : y.ord with
    | none => simp only [labelsTo, h, Option.map_none, ordPart]; rfl
    | some l =>
      simp only [labelsTo, h, Option.map_some, ordPart, ordDerivatives_to]
      cases ordDerivatives P.ord P.ordEps l F with
      | error e => rfl
      | ok r => cases r <;> rfl
  simp only [gpDerivatives, hp, ha, ho]
  cases ordPart P F y.ord with
  | error e => rfl
  | ok r => cases r <;> rfl

theorem logLikTraining_to (P : ProbitSet) (y : TrainLabels n) (F : Fin n → ℝ) :
    logLikTraining P (labelsTo σ y) (valuesTo σ F) = logLikTraining P y F := by
  have hp : pairLogPart P (valuesTo σ F) (labelsTo σ y).pairs = pairLogPart P F y.pairs := by
    cases h : y.pairs with
    | none => simp only [labelsTo, h, Option.map_none, pairLogPart]
    | some l =>
      simp only [labelsTo, h, Option.map_some, pairLogPart]
      exact congrArg (·.2.2) (prefDerivatives_to σ P.sigma l F)
  have ha : absLogPart P (valuesTo σ F) (labelsTo σ y).abs = absLogPart P F y.abs := by
    cases h : y.abs with
    | none => simp only [labelsTo, h, Option.map_none, absLogPart]
    | some l => simp only [labelsTo, h, Option.map_some, absLogPart, absLogLik_to]
  have ho : ordLogPart P (valuesTo σ F) (labelsTo σ y).ord = ordLogPart P F y.ord := by
    cases h : y.ord with
    | none => simp only [labelsTo, h, Option.map_none, ordLogPart]
    | some l => simp only [labelsTo, h, Option.map_some, ordLogPart, ordLikelihood, ordLikEach_to]
  simp only [logLikTraining, hp, ha, ho]

theorem matrixTo_inv (M : Matrix (Fin n) (Fin n) ℝ) : (matrixTo σ M)⁻¹ = matrixTo σ M⁻¹ := by
  rw [matrixTo_eq, matrixTo_eq, inv_submatrix_equiv]

theorem matrixTo_mulVec (M : Matrix (Fin n) (Fin n) ℝ) (F : Fin n → ℝ) :
    matrixTo σ M *ᵥ valuesTo σ F = valuesTo σ (M *ᵥ F) := by
  funext i
  simp only [mulVec, dotProduct, matrixTo, valuesTo, of_apply]
  exact Equiv.sum_comp σ.symm fun j => M (σ.symm i) j * F j

theorem vecMul_matrixTo (M : Matrix (Fin n) (Fin n) ℝ) (F : Fin n → ℝ) :
    valuesTo σ F ᵥ* matrixTo σ M = valuesTo σ (F ᵥ* M) := by
  funext i
  simp only [vecMul, dotProduct, matrixTo, valuesTo, of_apply]
  exact Equiv.sum_comp σ.symm fun j => F j * M j (σ.symm i)

theorem dot_valuesTo (F G : Fin n → ℝ) : valuesTo σ F ⬝ᵥ valuesTo σ G = F ⬝ᵥ G := by
  simp only [dotProduct, valuesTo]
  exact Equiv.sum_comp σ.symm fun j => F j * G j

theorem matrixTo_posDef (M : Matrix (Fin n) (Fin n) ℝ) : (matrixTo σ M).PosDef ↔ M.PosDef := by
  rw [matrixTo_eq]
  constructor
  · intro h
    have := h.submatrix (e := σ) σ.injective
    simpa using this
  · exact fun h => h.submatrix σ.symm.injective

theorem likliF_to (P : ProbitSet) (y : TrainLabels n) (K : Matrix (Fin n) (Fin n) ℝ) (F : Fin n → ℝ) :
    likliF P (labelsTo σ y) (matrixTo σ K) (valuesTo σ F) = likliF P y K F := by
  simp only [likliF, logLikTraining_to, matrixTo_inv, matrixTo_mulVec, dot_valuesTo]
  rw [show (matrixTo σ K).det = K.det from det_submatrix_equiv_self σ.symm K]

theorem valuesTo_step (F d : Fin n → ℝ) (c : ℝ) : valuesTo σ F - c • valuesTo σ d = valuesTo σ (F - c • d) := rfl

theorem findModeUpdate_to (P : ProbitSet) (y : TrainLabels n) (K : Matrix (Fin n) (Fin n) ℝ)
    {invert : Matrix (Fin n) (Fin n) ℝ → Option (Matrix (Fin n) (Fin n) ℝ)} (hinv : InvertsRenumbered invert)
    (F : Fin n → ℝ) :
    findModeUpdate P (labelsTo σ y) (matrixTo σ K) invert (valuesTo σ F) =
      (findModeUpdate P y K invert F).map fun r => r.map (valuesTo σ) := by
  simp only [findModeUpdate, gpDerivatives_to]
  cases gpDerivatives P y F with
  | error e => rfl
  | ok r =>
    cases r with
    | none => rfl
    | some r =>
      have e1 : modeGradHess (matrixTo σ K) (valuesTo σ F) (matrixTo σ r.1, valuesTo σ r.2.1, r.2.2) =
          (valuesTo σ (modeGradHess K F r).1, matrixTo σ (modeGradHess K F r).2) := by
        simp only [modeGradHess, matrixTo_inv, matrixTo_mulVec]
        rfl
      have e2 : descentDir (valuesTo σ (modeGradHess K F r).1) (matrixTo σ (modeGradHess K F r).2) invert =
          valuesTo σ (descentDir (modeGradHess K F r).1 (modeGradHess K F r).2 invert) := by
        simp only [descentDir, hinv σ]
        cases invert (modeGradHess K F r).2 with
        | none => rfl
        | some M => exact vecMul_matrixTo σ M _
      simp only [Except.map, bind, Except.bind, Option.map_some, e1, newtonUpdate, e2, valuesTo_step, likliF_to]
      rfl

theorem norm_valuesTo (F : Fin n → ℝ) : ‖valuesTo σ F‖ = ‖F‖ := by
  refine le_antisymm ?_ ?_
  · exact (pi_norm_le_iff_of_nonneg (norm_nonneg _)).2 fun i => norm_le_pi_norm F _
  · refine (pi_norm_le_iff_of_nonneg (norm_nonneg _)).2 fun i => ?_
    have := norm_le_pi_norm (valuesTo σ F) (σ i)
    rwa [valuesTo_perm] at this

theorem normalizeIterate_to (σ : Equiv.Perm (Fin (n + 1))) (o : ModeOpts) (F : Fin (n + 1) → ℝ) :
    normalizeIterate o (valuesTo σ F) = (normalizeIterate o F).map (valuesTo σ) := by
  have h1 : ∀ G : Fin (n + 1) → ℝ, Finset.univ.inf' Finset.univ_nonempty (valuesTo σ G) =
      Finset.univ.inf' Finset.univ_nonempty G := by
    intro G
    refine le_antisymm (Finset.le_inf' _ _ fun i _ => ?_) (Finset.le_inf' _ _ fun i _ => Finset.inf'_le G (Finset.mem_univ _))
    have := Finset.inf'_le (valuesTo σ G) (Finset.mem_univ (σ i))
    rwa [valuesTo_perm] at this
  have h2 : ∀ G : Fin (n + 1) → ℝ, Finset.univ.sup' Finset.univ_nonempty (valuesTo σ G) =
      Finset.univ.sup' Finset.univ_nonempty G := by
    intro G
    refine le_antisymm (Finset.sup'_le _ _ fun i _ => Finset.le_sup' G (Finset.mem_univ _)) (Finset.sup'_le _ _ fun i _ => ?_)
    have := Finset.le_sup' (valuesTo σ G) (Finset.mem_univ (σ i))
    rwa [valuesTo_perm] at this
  have h3 : ∀ c : ℝ, (fun i => valuesTo σ F i - c) = valuesTo σ fun i => F i - c := fun c => rfl
  simp only [normalizeIterate, h1, h3, h2, norm_valuesTo]
  split
  · split
    · split <;> rfl
    · split <;> rfl
  · rfl

theorem findModeLoop_to {α : Type*} (φ : α → α) {step step' : α → Except PyErr (α × Bool)}
    (h : ∀ s, step' (φ s) = (step s).map (Prod.map φ id)) (maxloops : Nat) (fuel : Nat) (s : α) (go : Bool) (k : Nat) :
    findModeLoop step' maxloops fuel (φ s) go k =
      (findModeLoop step maxloops fuel s go k).map fun r => r.map (Prod.map φ id) := by
  induction fuel generalizing s go k with
  | zero => rfl
  | succ fuel ih =>
    simp only [findModeLoop, h]
    cases go with
    | false => rfl
    | true =>
      cases step s with
      | error e => rfl
      | ok r =>
        simp only [Except.map, if_true, Prod.map, id]
        split
        · rfl
        · exact ih _ _ _

theorem findModeStep_to (σ : Equiv.Perm (Fin (n + 1))) (o : ModeOpts) (P : ProbitSet) (y : TrainLabels (n + 1))
    (K : Matrix (Fin (n + 1)) (Fin (n + 1)) ℝ)
    {invert : Matrix (Fin (n + 1)) (Fin (n + 1)) ℝ → Option (Matrix (Fin (n + 1)) (Fin (n + 1)) ℝ)}
    (hinv : InvertsRenumbered invert) (F : Option (Fin (n + 1) → ℝ)) :
    findModeStep o P (labelsTo σ y) (matrixTo σ K) invert (F.map (valuesTo σ)) =
      (findModeStep o P y K invert F).map (Prod.map (Option.map (valuesTo σ)) id) := by
  cases F with
  | none => rfl
  | some F =>
    simp only [Option.map_some, findModeStep, findModeUpdate_to σ P y K hinv]
    cases findModeUpdate P y K invert F with
    | error e => rfl
    | ok r =>
      cases r with
      | none => rfl
      | some G =>
        simp only [Except.map, Option.map_some, Option.bind_some, normalizeIterate_to]
        cases normalizeIterate o G with
        | none => rfl
        | some G' =>
          simp only [Option.map_some, Prod.map, id]
          rw [show valuesTo σ G' - valuesTo σ F = valuesTo σ (G' - F) from rfl, norm_valuesTo]

theorem npInv_renumbered : InvertsRenumbered (npInv (n := n)) := by
  intro σ M
  have e : (matrixTo σ M).det = M.det := det_submatrix_equiv_self σ.symm M
  by_cases h : IsUnit M.det
  · have h2 : M.det ≠ 0 := h.ne_zero
    simp [npInv, e, matrixTo_inv, h2]
  · have h2 : M.det = 0 := by simpa using h
    simp [npInv, e, h2]

theorem findMode_congr {o : ModeOpts} {P : ProbitSet} {y y' : TrainLabels (n + 1)}
    (hd : ∀ F, gpDerivatives P y' F = gpDerivatives P y F) (hl : ∀ F, logLikTraining P y' F = logLikTraining P y F)
    {K : Matrix (Fin (n + 1)) (Fin (n + 1)) ℝ}
    {invert : Matrix (Fin (n + 1)) (Fin (n + 1)) ℝ → Option (Matrix (Fin (n + 1)) (Fin (n + 1)) ℝ)}
    {F0 : Fin (n + 1) → ℝ} : findMode o P y' K invert F0 = findMode o P y K invert F0 := by
  have h1 : ∀ F, likliF P y' K F = likliF P y K F := fun F => by simp only [likliF, hl]
  have h2 : ∀ F, findModeUpdate P y' K invert F = findModeUpdate P y K invert F := fun F => by
    simp only [findModeUpdate, hd, h1]
  have h3 : findModeStep o P y' K invert = findModeStep o P y K invert := by
    funext F
    cases F with
    | none => rfl
    | some F => simp only [findModeStep, h2]
  simp only [findMode, h3, hd]

theorem sameAnswers_derivs {y y' : List (IPair n)} (h : SameAnswers y y') (sigma : ℝ) (F : Fin n → ℝ) :
    prefDerivatives sigma y' F = prefDerivatives sigma y F := by
  induction h with
  | perm h =>
    refine Prod.ext ?_ (Prod.ext ?_ ?_)
    · ext i j
      exact (prefW_apply _ _ _ _ _).trans ((h.map _).sum_eq.symm.trans (prefW_apply _ _ _ _ _).symm)
    · funext i
      exact (prefDerv_apply _ _ _ _).trans ((h.map _).sum_eq.symm.trans (prefDerv_apply _ _ _ _).symm)
    · exact (h.map _).sum_eq.symm
  | flip p l =>
    have hz : zk sigma F (pairFlip p) = zk sigma F p := by
      simp only [zk, pairFlip]
      push_cast
      ring
    have hi : ∀ i, inc (pairFlip p) i = -inc p i := by
      intro i
      by_cases h1 : p.u = i <;> by_cases h2 : p.v = i <;> simp [inc, pairFlip, h1, h2]
    refine Prod.ext ?_ (Prod.ext ?_ ?_)
    · ext i j
      simp only [prefDerivatives]
      rw [prefW_apply, prefW_apply, List.map_cons, List.map_cons, List.sum_cons, List.sum_cons, hz, hi, hi]
      simp only [pairFlip]
      push_cast
      ring
    · funext i
      simp only [prefDerivatives]
      rw [prefDerv_apply, prefDerv_apply, List.map_cons, List.map_cons, List.sum_cons, List.sum_cons, hz, hi]
      simp only [pairFlip]
      push_cast
      ring
    · simp only [prefDerivatives, prefLogLik, List.map_cons, hz]
  | trans _ _ ih1 ih2 => rw [ih2, ih1]

theorem assignVec_perm {l l' : List (Fin n × ℝ)} (h : l.Perm l') (hnd : (l.map (·.1)).Nodup) :
    assignVec l = assignVec l' := by
  refine h.foldl_eq' (fun a ha b hb M => ?_) _
  by_cases hab : a.1 = b.1
  · have : a = b := List.inj_on_of_nodup_map hnd ha hb hab
    rw [this]
  · exact Function.update_comm (fun hh => hab hh) _ _ _

theorem predict_to {d t m : Nat} {cov : CovFn d} (σ : Equiv.Perm (Fin t)) {Y : Fin t → Pt d}
    {K W : Matrix (Fin t) (Fin t) ℝ} {F : Fin t → ℝ} {X : Fin m → Pt d} {Ks Ks' : Matrix (Fin m) (Fin t) ℝ}
    (h : cov _ _ X Y = .ok Ks) (h' : cov _ _ X (valuesTo σ Y) = .ok Ks') (e : Ks' = Ks.submatrix id σ.symm)
    {invert : Matrix (Fin t) (Fin t) ℝ → Option (Matrix (Fin t) (Fin t) ℝ)} (hinv : InvertsRenumbered invert) :
    prefGpPredict cov (valuesTo σ Y) (matrixTo σ K) (matrixTo σ W) (valuesTo σ F) invert X =
      prefGpPredict cov Y K W F invert X := by
  simp only [prefGpPredict, h, h', bind, Except.bind]
  cases cov m m X X with
  | error e => rfl
  | ok Kss =>
    simp only [laplacePredict]
    have e1 : 1 + matrixTo σ W * matrixTo σ K = matrixTo σ (1 + W * K) := by
      rw [matrixTo_eq, matrixTo_eq, matrixTo_eq, submatrix_mul_equiv]
      ext i j
      simp [Matrix.add_apply, Matrix.one_apply]
    rw [e1, hinv]
    by_cases hp : K.PosDef
    · rw [if_pos hp, if_pos ((matrixTo_posDef σ K).2 hp)]
      cases invert (1 + W * K) with
      | none => rfl
      | some T =>
        have e2 : Ks' * matrixTo σ T * (matrixTo σ W * Ks'ᵀ) = Ks * T * (W * Ksᵀ) := by
          rw [e, matrixTo_eq, matrixTo_eq, transpose_submatrix, submatrix_mul_equiv, submatrix_mul_equiv,
            submatrix_mul_equiv, submatrix_id_id]
        have e3 : Ks' *ᵥ ((matrixTo σ K)⁻¹ *ᵥ valuesTo σ F) = Ks *ᵥ (K⁻¹ *ᵥ F) := by
          rw [matrixTo_inv, matrixTo_mulVec, e]
          funext i
          simp only [mulVec, dotProduct, submatrix_apply, valuesTo, id]
          exact Equiv.sum_comp σ.symm fun j => Ks i j * ∑ x, K⁻¹ j x * F x
        simp only [Option.map_some, e2, e3]
    · rw [if_neg hp, if_neg fun h => hp ((matrixTo_posDef σ K).1 h)]

theorem linFit_congr {m m' d : Nat} {P : ProbitSet} {y : TrainLabels m} {y' : TrainLabels m'} {X : Matrix (Fin m) (Fin d) ℝ}
    {X' : Matrix (Fin m') (Fin d) ℝ} (hd : ∀ w, linDerivatives P y' X' w = linDerivatives P y X w)
    (hl : ∀ w, linLoss P y' X' w = linLoss P y X w) (w0 : Fin d → ℝ) : linFit P y' X' w0 = linFit P y X w0 := by
  have h2 : ∀ w, linUpdate P y' X' npInv w = linUpdate P y X npInv w := fun w => by simp only [linUpdate, hd, hl]
  have h3 : linStep P y' X' = linStep P y X := by
    funext w
    cases w with
    | none => rfl
    | some w => simp only [linStep, h2]
  simp only [linFit, h3]

theorem linValues_to {d : Nat} (X : Matrix (Fin n) (Fin d) ℝ) (w : Fin d → ℝ) :
    linValues (X.submatrix σ.symm id) w = valuesTo σ (linValues X w) := rfl

theorem linDerivatives_to {d : Nat} (P : ProbitSet) (y : TrainLabels n) (X : Matrix (Fin n) (Fin d) ℝ) (w : Fin d → ℝ) :
    linDerivatives P (labelsTo σ y) (X.submatrix σ.symm id) w = linDerivatives P y X w := by
  simp only [linDerivatives, linValues_to, gpDerivatives_to]
  cases gpDerivatives P y (linValues X w) with
  | error e => rfl
  | ok r =>
    cases r with
    | none => rfl
    | some r =>
      have e1 : (X.submatrix σ.symm id)ᵀ * matrixTo σ r.1 * X.submatrix σ.symm id = Xᵀ * r.1 * X := by
        rw [matrixTo_eq, transpose_submatrix, submatrix_mul_equiv, submatrix_mul_equiv, submatrix_id_id]
      have e2 : valuesTo σ r.2.1 ᵥ* X.submatrix σ.symm id = r.2.1 ᵥ* X := by
        funext j
        simp only [vecMul, dotProduct, submatrix_apply, valuesTo, id]
        exact Equiv.sum_comp σ.symm fun i => r.2.1 i * X i j
      simp only [Except.map, Option.map_some, e1, e2]

theorem prefDerivatives_shift (sigma : ℝ) (y : List (IPair n)) (F : Fin n → ℝ) (a : ℝ) :
    prefDerivatives sigma y (fun i => F i + a) = prefDerivatives sigma y F := by
  have hz : ∀ p : IPair n, zk sigma (fun i => F i + a) p = zk sigma F p := by
    intro p
    simp only [zk]
    ring
  simp only [prefDerivatives, prefW, prefDerv, prefLogLik, hz]

theorem prefDerv_sum (sigma : ℝ) (y : List (IPair n)) (F : Fin n → ℝ) : ∑ i, prefDerv sigma y F i = 0 := by
  simp only [prefDerv_apply]
  induction y with
  | nil => simp
  | cons p y ih =>
    simp only [List.map_cons, List.sum_cons, Finset.sum_add_distrib, ih, add_zero, ← Finset.mul_sum, sum_inc, mul_zero]

theorem prefW_row (sigma : ℝ) (y : List (IPair n)) (F : Fin n → ℝ) (i : Fin n) : ∑ j, prefW sigma y F i j = 0 := by
  simp only [prefW_apply]
  induction y with
  | nil => simp
  | cons p y ih =>
    simp only [List.map_cons, List.sum_cons, Finset.sum_add_distrib, ih, add_zero, ← Finset.mul_sum, sum_inc, mul_zero]

theorem prefW_col (sigma : ℝ) (y : List (IPair n)) (F : Fin n → ℝ) (j : Fin n) : ∑ i, prefW sigma y F i j = 0 := by
  have : ∀ i, prefW sigma y F i j = prefW sigma y F j i := by
    intro i
    rw [prefW_apply, prefW_apply]
    congr 1
    refine List.map_congr_left fun p _ => ?_
    ring
  simp only [this, prefW_row]

theorem linDerivatives_shift {d : Nat} (P : ProbitSet) (y : Option (List (IPair n))) (X : Matrix (Fin n) (Fin d) ℝ)
    (c : Fin d → ℝ) (w : Fin d → ℝ) :
    linDerivatives P ⟨y, none, none⟩ (Matrix.of fun i j => X i j + c j) w = linDerivatives P ⟨y, none, none⟩ X w := by
  have hv : linValues (Matrix.of fun i j => X i j + c j) w = fun i => linValues X w i + ∑ j, c j * w j := by
    funext i
    simp only [linValues, mulVec, dotProduct, of_apply, add_mul, Finset.sum_add_distrib]
  have hp : pairPart P.sigma (fun i => linValues X w i + ∑ j, c j * w j) y = pairPart P.sigma (linValues X w) y := by
    cases y with
    | none => rfl
    | some y => exact prefDerivatives_shift _ _ _ _
  have key : ∀ (W : Matrix (Fin n) (Fin n) ℝ) (g : Fin n → ℝ), (∀ i, ∑ j, W i j = 0) → (∀ j, ∑ i, W i j = 0) → ∑ i, g i = 0 →
      (Matrix.of fun i j => X i j + c j)ᵀ * W * (Matrix.of fun i j => X i j + c j) = Xᵀ * W * X ∧
      g ᵥ* (Matrix.of fun i j => X i j + c j) = g ᵥ* X := by
    intro W g h1 h2 h3
    constructor
    · have e1 : (Matrix.of fun i j => X i j + c j)ᵀ * W = Xᵀ * W := by
        ext a b
        simp only [Matrix.mul_apply, transpose_apply, of_apply, add_mul, Finset.sum_add_distrib, ← Finset.mul_sum, h2,
          mul_zero, add_zero]
      have e2 : W * (Matrix.of fun i j => X i j + c j) = W * X := by
        ext a b
        simp only [Matrix.mul_apply, of_apply, mul_add, Finset.sum_add_distrib, ← Finset.sum_mul, h1, zero_mul, add_zero]
      rw [e1, Matrix.mul_assoc, e2, Matrix.mul_assoc]
    · funext b
      simp only [vecMul, dotProduct, of_apply, mul_add, Finset.sum_add_distrib, ← Finset.sum_mul, h3, zero_mul, add_zero]
  simp only [linDerivatives, hv, gpDerivatives, hp, ordPart, absPart, Except.map, Option.map_some, add_zero]
  cases y with
  | none =>
    obtain ⟨h1, h2⟩ := key 0 0 (by simp) (by simp) (by simp)
    simp only [pairPart, h1, h2]
  | some y =>
    obtain ⟨h1, h2⟩ := key (prefW P.sigma y (linValues X w)) (prefDerv P.sigma y (linValues X w)) (prefW_row _ _ _)
      (prefW_col _ _ _) (prefDerv_sum _ _ _)
    simp only [pairPart, prefDerivatives, h1, h2]

theorem linLoss_shift {d : Nat} (P : ProbitSet) (y : Option (List (IPair n))) (X : Matrix (Fin n) (Fin d) ℝ)
    (c : Fin d → ℝ) (w : Fin d → ℝ) :
    linLoss P ⟨y, none, none⟩ (Matrix.of fun i j => X i j + c j) w = linLoss P ⟨y, none, none⟩ X w := by
  have hv : linValues (Matrix.of fun i j => X i j + c j) w = fun i => linValues X w i + ∑ j, c j * w j := by
    funext i
    simp only [linValues, mulVec, dotProduct, of_apply, add_mul, Finset.sum_add_distrib]
  simp only [linLoss, hv, logLikTraining]
  cases y with
  | none => rfl
  | some y =>
    have := congrArg (·.2.2) (prefDerivatives_shift P.sigma y (linValues X w) (∑ j, c j * w j))
    simp only [prefDerivatives] at this
    simp only [pairLogPart, this]
    rfl

end Lop
