import Verif.Model.PrefProbit
import Verif.Spec.Calculus
import Verif.Proofs.Normal
import Mathlib.Analysis.Calculus.FDeriv.Add
import Mathlib.Analysis.Calculus.FDeriv.Mul
import Mathlib.Analysis.Calculus.FDeriv.Comp
import Mathlib.Analysis.Calculus.FDeriv.Prod
import Mathlib.Analysis.Calculus.Deriv.Comp
import Mathlib.Tactic.FieldSimp
import Mathlib.Tactic.Ring
import Mathlib.Tactic.Linarith

/-! Lemmas for the preference probit. -/

namespace Lop

open Spec

theorem stdNormPdf_eq : stdNormPdf = phi := rfl

theorem npClip_of_mem {x : ℝ} (h1 : -30 ≤ x) (h2 : x ≤ 100) : npClip (-30) 100 x = x := by
  simp [npClip, h1, h2]

theorem stdNormCdf_pos (x : ℝ) : 0 < stdNormCdf x := Phi_pos _

theorem npClip_mono : Monotone (npClip (-30 : ℝ) 100) := by
  intro x y h
  unfold npClip
  exact min_le_min (max_le_max h le_rfl) le_rfl

theorem stdNormCdf_of_mem {x : ℝ} (h1 : -30 ≤ x) (h2 : x ≤ 100) : stdNormCdf x = Phi x := by
  rw [stdNormCdf, npClip_of_mem h1 h2]

/-- Ratio `φ/Φ` without clipping. -/
noncomputable def mratio (z : ℝ) : ℝ := phi z / Phi z

theorem mratio_pos (z : ℝ) : 0 < mratio z := div_pos (phi_pos z) (Phi_pos z)

theorem pdfCdfRatio_of_mem {x : ℝ} (h1 : -30 ≤ x) (h2 : x ≤ 100) : pdfCdfRatio x = mratio x := by
  rw [pdfCdfRatio, stdNormCdf_of_mem h1 h2, stdNormPdf_eq, mratio]

theorem pdfCdfRatio2_of_mem {x : ℝ} (h1 : -30 ≤ x) (h2 : x ≤ 100) :
    pdfCdfRatio2 x = mratio x * mratio x := by
  rw [pdfCdfRatio2, pdfCdfRatio_of_mem h1 h2]

theorem hasDerivAt_logPhi (z : ℝ) : HasDerivAt (fun x => Real.log (Phi x)) (mratio z) z :=
  (hasDerivAt_Phi z).log (Phi_pos z).ne'

/-- The curvature `z r + r²`. -/
noncomputable def mcurv (z : ℝ) : ℝ := z * mratio z + mratio z * mratio z

theorem mcurv_pos (z : ℝ) : 0 < mcurv z := by
  have h : mcurv z = mratio z / Phi z * (z * Phi z + phi z) := by
    have := (Phi_pos z).ne'
    simp only [mcurv, mratio]
    field_simp
  rw [h]
  exact mul_pos (div_pos (mratio_pos z) (Phi_pos z)) (mills z)

theorem hasDerivAt_mratio (z : ℝ) : HasDerivAt mratio (-mcurv z) z := by
  have h := (hasDerivAt_phi z).div (hasDerivAt_Phi z) (Phi_pos z).ne'
  refine h.congr_deriv ?_
  have := (Phi_pos z).ne'
  simp only [mcurv, mratio]
  field_simp
  ring

/-- Derivative of the curvature. -/
noncomputable def mthird (z : ℝ) : ℝ :=
  mratio z - z * z * mratio z - 3 * z * (mratio z * mratio z) - 2 * (mratio z * mratio z * mratio z)

theorem hasDerivAt_mcurv (z : ℝ) : HasDerivAt mcurv (mthird z) z := by
  have h := ((hasDerivAt_id z).mul (hasDerivAt_mratio z)).add
    ((hasDerivAt_mratio z).mul (hasDerivAt_mratio z))
  refine h.congr_deriv ?_
  simp only [mcurv, mthird, id]
  ring

/-! ### Accumulation loops -/

variable {n : Nat}

theorem addUpVec_apply (l : List (Fin n × ℝ)) (M : Fin n → ℝ) (i : Fin n) :
    addUpVec l M i = M i + (l.map fun e => if e.1 = i then e.2 else 0).sum := by
  induction l generalizing M with
  | nil => simp [addUpVec]
  | cons e l ih =>
    have : addUpVec (e :: l) M = addUpVec l (Function.update M e.1 (M e.1 + e.2)) := rfl
    rw [this, ih]
    by_cases h : e.1 = i
    · subst h; simp [add_assoc]
    · simp [h, Function.update_of_ne (Ne.symm h)]

theorem addUpMat_apply (l : List ((Fin n × Fin n) × ℝ)) (M : Fin n → Fin n → ℝ) (i j : Fin n) :
    addUpMat l M i j = M i j + (l.map fun e => if e.1 = (i, j) then e.2 else 0).sum := by
  induction l generalizing M with
  | nil => simp [addUpMat]
  | cons e l ih =>
    have : addUpMat (e :: l) M =
      addUpMat l (fun a b => if (a, b) = e.1 then M a b + e.2 else M a b) := rfl
    rw [this, ih]
    by_cases h : e.1 = (i, j)
    · simp [h, add_assoc]
    · simp [h, Ne.symm h]

theorem addUpTensor_apply (l : List ((Fin n × Fin n × Fin n) × ℝ)) (M : Fin n → Fin n → Fin n → ℝ)
    (i j k : Fin n) :
    addUpTensor l M i j k = M i j k + (l.map fun e => if e.1 = (i, j, k) then e.2 else 0).sum := by
  induction l generalizing M with
  | nil => simp [addUpTensor]
  | cons e l ih =>
    have : addUpTensor (e :: l) M =
      addUpTensor l (fun a b c => if (a, b, c) = e.1 then M a b c + e.2 else M a b c) := rfl
    rw [this, ih]
    by_cases h : e.1 = (i, j, k)
    · simp [h, add_assoc]
    · simp [h, Ne.symm h]

/-- Incidence of a pair: +1 at `v`, -1 at `u`. -/
def inc (p : IPair n) (i : Fin n) : ℝ := (if p.v = i then 1 else 0) - (if p.u = i then 1 else 0)

theorem sum_map_add {ι : Type*} (l : List ι) (f g : ι → ℝ) :
    (l.map f).sum + (l.map g).sum = (l.map fun x => f x + g x).sum := by
  induction l with
  | nil => simp
  | cons a l ih => simp only [List.map_cons, List.sum_cons, ← ih]; ring

theorem sum_map_congr {ι : Type*} {l : List ι} {f g : ι → ℝ} (h : ∀ x ∈ l, f x = g x) :
    (l.map f).sum = (l.map g).sum := by
  rw [List.map_congr_left h]

theorem sum_map_neg {ι : Type*} (l : List ι) (f : ι → ℝ) :
    -(l.map f).sum = (l.map fun x => -f x).sum := by
  induction l with
  | nil => simp
  | cons a l ih => simp only [List.map_cons, List.sum_cons, ← ih]; ring

theorem sum_map_mul {ι : Type*} (l : List ι) (f : ι → ℝ) (c : ℝ) :
    (l.map f).sum * c = (l.map fun x => f x * c).sum := by
  induction l with
  | nil => simp
  | cons a l ih => simp only [List.map_cons, List.sum_cons, ← ih]; ring

theorem sum_map_nonneg {ι : Type*} {l : List ι} {f : ι → ℝ} (h : ∀ x ∈ l, 0 ≤ f x) :
    0 ≤ (l.map f).sum := by
  refine List.sum_nonneg fun x hx => ?_
  obtain ⟨a, ha, rfl⟩ := List.mem_map.1 hx
  exact h a ha

theorem sum_finset_list {ι κ : Type*} (s : Finset κ) (l : List ι) (f : κ → ι → ℝ) :
    ∑ k ∈ s, (l.map (f k)).sum = (l.map fun x => ∑ k ∈ s, f k x).sum := by
  induction l with
  | nil => simp
  | cons a l ih => simp only [List.map_cons, List.sum_cons, Finset.sum_add_distrib, ih]

theorem ite_and_mul (P Q : Prop) [Decidable P] [Decidable Q] (x : ℝ) :
    (if P ∧ Q then x else 0) = x * ((if P then 1 else 0) * (if Q then 1 else 0)) := by
  by_cases P <;> by_cases Q <;> simp [*]

theorem ite_and_mul3 (P Q R : Prop) [Decidable P] [Decidable Q] [Decidable R] (x : ℝ) :
    (if P ∧ Q ∧ R then x else 0) =
      x * ((if P then 1 else 0) * (if Q then 1 else 0) * (if R then 1 else 0)) := by
  by_cases P <;> by_cases Q <;> by_cases R <;> simp [*]

theorem addUpPairs_apply (y : List (IPair n)) (w : IPair n → ℝ) (i j : Fin n) :
    addUpPairs y w i j = (y.map fun p => -w p * (inc p i * inc p j)).sum := by
  simp only [addUpPairs, Matrix.of_apply, addUpMat_apply, List.map_map, Function.comp_def, zero_add]
  rw [sum_map_add, sum_map_add, sum_map_add]
  refine sum_map_congr fun p _ => ?_
  simp only [inc, Prod.mk.injEq, ite_and_mul]
  ring

theorem addUpWPartial_apply (l : List (IPair n × ℝ)) (a i j : Fin n) :
    addUpWPartial l (fun _ _ _ => 0) a i j =
      (l.map fun e => -e.2 * (inc e.1 a * inc e.1 i * inc e.1 j)).sum := by
  simp only [addUpWPartial, addUpTensor_apply, zero_add]
  induction l with
  | nil => simp
  | cons e l ih =>
    simp only [List.flatMap_cons, List.map_append, List.sum_append, ih, List.map_cons, List.sum_cons]
    congr 1
    obtain ⟨p, v⟩ := e
    simp only [inc, Prod.mk.injEq, List.map_nil, List.sum_nil, ite_and_mul3]
    ring

theorem prefDerv_apply (sigma : ℝ) (y : List (IPair n)) (F : Fin n → ℝ) (i : Fin n) :
    prefDerv sigma y F i =
      (y.map fun p => (p.dk * pdfCdfRatio (zk sigma F p) * isqrt2sig sigma) * inc p i).sum := by
  simp only [prefDerv, addUpVec_apply, List.map_map, Function.comp_def, zero_add]
  rw [sum_map_add]
  refine sum_map_congr fun p _ => ?_
  simp only [inc]
  by_cases h1 : p.u = i <;> by_cases h3 : p.v = i <;> simp only [h1, h3, if_true, if_false] <;> ring

theorem prefW_apply (sigma : ℝ) (y : List (IPair n)) (F : Fin n → ℝ) (i j : Fin n) :
    prefW sigma y F i j = (y.map fun p => (p.dk : ℝ) ^ 2 * isqrt2sig sigma ^ 2 *
      (zk sigma F p * pdfCdfRatio (zk sigma F p) + pdfCdfRatio2 (zk sigma F p)) *
        (inc p i * inc p j)).sum := by
  simp only [prefW, addUpPairs_apply]
  refine sum_map_congr fun p _ => ?_
  simp only [i2var]
  ring

/-! ### Calculus -/

/-- The pair's latent difference as a gradient. -/
theorem grad_zk (sigma : ℝ) (p : IPair n) (F : Fin n → ℝ) :
    IsGradientAt (fun F => zk sigma F p) (fun i => isqrt2sig sigma * p.dk * inc p i) F := by
  unfold IsGradientAt
  have h1 := (ContinuousLinearMap.proj (R := ℝ) (φ := fun _ : Fin n => ℝ) p.v).hasFDerivAt (x := F)
  have h2 := (ContinuousLinearMap.proj (R := ℝ) (φ := fun _ : Fin n => ℝ) p.u).hasFDerivAt (x := F)
  have h := (h1.sub h2).const_mul (isqrt2sig sigma * p.dk)
  refine HasFDerivAt.congr_fderiv h ?_
  ext v
  simp only [ContinuousLinearMap.smul_apply, ContinuousLinearMap.sub_apply, ContinuousLinearMap.proj_apply,
    smul_eq_mul, ContinuousLinearMap.sum_apply, inc]
  simp only [mul_sub, sub_mul, Finset.sum_sub_distrib, mul_ite, mul_one, mul_zero, ite_mul, zero_mul,
    Finset.sum_ite_eq, Finset.mem_univ, if_true]

theorem Spec.IsGradientAt.comp {f : (Fin n → ℝ) → ℝ} {g F : Fin n → ℝ} (hf : IsGradientAt f g F)
    {h : ℝ → ℝ} {h' : ℝ} (hh : HasDerivAt h h' (f F)) (c : ℝ) :
    IsGradientAt (fun F => c * h (f F)) (fun i => c * h' * g i) F := by
  unfold IsGradientAt at *
  have := (hh.comp_hasFDerivAt F hf).const_mul c
  refine HasFDerivAt.congr_fderiv this ?_
  ext v
  simp only [ContinuousLinearMap.smul_apply, ContinuousLinearMap.sum_apply, smul_eq_mul,
    Finset.mul_sum, ContinuousLinearMap.proj_apply]
  exact Finset.sum_congr rfl fun i _ => by ring

theorem Spec.IsGradientAt.list_sum {ι : Type*} (l : List ι) (f : ι → (Fin n → ℝ) → ℝ) (g : ι → Fin n → ℝ)
    {F : Fin n → ℝ} (h : ∀ x ∈ l, IsGradientAt (f x) (g x) F) :
    IsGradientAt (fun F => (l.map fun x => f x F).sum) (fun i => (l.map fun x => g x i).sum) F := by
  unfold IsGradientAt at *
  induction l with
  | nil =>
    simp only [List.map_nil, List.sum_nil]
    refine HasFDerivAt.congr_fderiv (hasFDerivAt_const 0 F) ?_
    ext v; simp
  | cons a l ih =>
    simp only [List.map_cons, List.sum_cons]
    have h1 := (h a (by simp)).add (ih fun x hx => h x (by simp [hx]))
    refine HasFDerivAt.congr_fderiv h1 ?_
    ext v
    simp only [ContinuousLinearMap.add_apply, ContinuousLinearMap.sum_apply,
      ContinuousLinearMap.smul_apply, smul_eq_mul, ContinuousLinearMap.proj_apply]
    rw [← Finset.sum_add_distrib]
    exact Finset.sum_congr rfl fun i _ => by ring

theorem Spec.IsGradientAt.congr {f f' : (Fin n → ℝ) → ℝ} {g g' F : Fin n → ℝ} (h : IsGradientAt f g F)
    (hf : f' =ᶠ[nhds F] f) (hg : g' = g) : IsGradientAt f' g' F := by
  unfold IsGradientAt at *
  rw [hg]
  exact h.congr_of_eventuallyEq hf

theorem continuous_zk (sigma : ℝ) (p : IPair n) : Continuous fun F => zk sigma F p := by
  unfold zk
  fun_prop

/-- Near a point strictly inside the clipping range the same holds. -/
theorem eventually_in_range (sigma : ℝ) (y : List (IPair n)) (F : Fin n → ℝ)
    (h : ∀ p ∈ y, -30 < zk sigma F p ∧ zk sigma F p < 100) :
    ∀ᶠ G in nhds F, ∀ p ∈ y, -30 < zk sigma G p ∧ zk sigma G p < 100 := by
  induction y with
  | nil => simp
  | cons p y ih =>
    have h1 := h p (by simp)
    have e1 : ∀ᶠ G in nhds F, -30 < zk sigma G p :=
      (continuous_zk sigma p).continuousAt.eventually (lt_mem_nhds h1.1)
    have e2 : ∀ᶠ G in nhds F, zk sigma G p < 100 :=
      (continuous_zk sigma p).continuousAt.eventually (gt_mem_nhds h1.2)
    filter_upwards [e1, e2, ih fun q hq => h q (by simp [hq])] with G g1 g2 g3 q hq
    rcases List.mem_cons.1 hq with rfl | hq
    · exact ⟨g1, g2⟩
    · exact g3 q hq

theorem grad_logLik (sigma : ℝ) (y : List (IPair n)) (F : Fin n → ℝ)
    (h : ∀ p ∈ y, -30 < zk sigma F p ∧ zk sigma F p < 100) :
    IsGradientAt (prefLogLik sigma y) (prefDerv sigma y F) F := by
  have key := IsGradientAt.list_sum y (fun p F => 1 * Real.log (Phi (zk sigma F p)))
    (fun p i => 1 * mratio (zk sigma F p) * (isqrt2sig sigma * p.dk * inc p i)) (F := F)
    (fun p _ => (grad_zk sigma p F).comp (hasDerivAt_logPhi _) 1)
  refine key.congr ?_ ?_
  · filter_upwards [eventually_in_range sigma y F h] with G hG
    simp only [prefLogLik, one_mul]
    exact sum_map_congr fun p hp => by rw [npClip_of_mem (hG p hp).1.le (hG p hp).2.le]
  · funext i
    rw [prefDerv_apply]
    refine sum_map_congr fun p hp => ?_
    rw [pdfCdfRatio_of_mem (h p hp).1.le (h p hp).2.le]
    ring

theorem grad_derv (sigma : ℝ) (y : List (IPair n)) (F : Fin n → ℝ)
    (h : ∀ p ∈ y, -30 < zk sigma F p ∧ zk sigma F p < 100) :
    IsJacobianAt (prefDerv sigma y) (fun i j => -prefW sigma y F i j) F := by
  intro i
  have key := IsGradientAt.list_sum y
    (fun p F => (p.dk * isqrt2sig sigma * inc p i) * mratio (zk sigma F p))
    (fun p j => (p.dk * isqrt2sig sigma * inc p i) * -mcurv (zk sigma F p) *
      (isqrt2sig sigma * p.dk * inc p j)) (F := F)
    (fun p _ => (grad_zk sigma p F).comp (hasDerivAt_mratio _) _)
  refine key.congr ?_ ?_
  · filter_upwards [eventually_in_range sigma y F h] with G hG
    rw [prefDerv_apply]
    refine sum_map_congr fun p hp => ?_
    rw [pdfCdfRatio_of_mem (hG p hp).1.le (hG p hp).2.le]
    ring
  · funext j
    show -(prefW sigma y F i j) = _
    rw [prefW_apply, sum_map_neg]
    refine sum_map_congr fun p hp => ?_
    rw [pdfCdfRatio_of_mem (h p hp).1.le (h p hp).2.le, pdfCdfRatio2_of_mem (h p hp).1.le (h p hp).2.le]
    simp only [mcurv]
    ring

theorem grad_W (sigma : ℝ) (y : List (IPair n)) (F : Fin n → ℝ)
    (h : ∀ p ∈ y, -30 < zk sigma F p ∧ zk sigma F p < 100) (i j : Fin n) :
    IsGradientAt (fun F => prefW sigma y F i j)
      (fun a => (y.map fun p => (p.dk : ℝ) ^ 3 * isqrt2sig sigma ^ 3 * mthird (zk sigma F p) *
        (inc p a * inc p i * inc p j)).sum) F := by
  have key := IsGradientAt.list_sum y
    (fun p F => ((p.dk : ℝ) ^ 2 * isqrt2sig sigma ^ 2 * (inc p i * inc p j)) * mcurv (zk sigma F p))
    (fun p a => ((p.dk : ℝ) ^ 2 * isqrt2sig sigma ^ 2 * (inc p i * inc p j)) * mthird (zk sigma F p) *
      (isqrt2sig sigma * p.dk * inc p a)) (F := F)
    (fun p _ => (grad_zk sigma p F).comp (hasDerivAt_mcurv _) _)
  refine key.congr ?_ ?_
  · filter_upwards [eventually_in_range sigma y F h] with G hG
    rw [prefW_apply]
    refine sum_map_congr fun p hp => ?_
    rw [pdfCdfRatio_of_mem (hG p hp).1.le (hG p hp).2.le,
      pdfCdfRatio2_of_mem (hG p hp).1.le (hG p hp).2.le]
    simp only [mcurv]
    ring
  · funext a
    refine sum_map_congr fun p hp => ?_
    ring

/-! ### Quadratic form -/

theorem sum_inc_mul (p : IPair n) (x : Fin n → ℝ) : ∑ i, inc p i * x i = x p.v - x p.u := by
  simp [inc, sub_mul, Finset.sum_sub_distrib]

theorem sum_inc (p : IPair n) : ∑ i, inc p i = 0 := by
  have := sum_inc_mul p (fun _ => 1)
  simpa using this

theorem pairs_quadratic (y : List (IPair n)) (w : IPair n → ℝ) (M : Matrix (Fin n) (Fin n) ℝ)
    (hM : ∀ i j, M i j = (y.map fun p => w p * (inc p i * inc p j)).sum) (x : Fin n → ℝ) :
    ∑ i, x i * ∑ j, M i j * x j = (y.map fun p => w p * (x p.v - x p.u) ^ 2).sum := by
  have h1 : ∀ i, ∑ j, M i j * x j = (y.map fun p => w p * inc p i * (x p.v - x p.u)).sum := by
    intro i
    simp only [hM, sum_map_mul]
    rw [sum_finset_list]
    refine sum_map_congr fun p _ => ?_
    rw [← sum_inc_mul, Finset.mul_sum]
    exact Finset.sum_congr rfl fun j _ => by ring
  simp only [h1]
  have h2 : ∀ i, x i * (y.map fun p => w p * inc p i * (x p.v - x p.u)).sum =
      (y.map fun p => w p * inc p i * (x p.v - x p.u) * x i).sum := by
    intro i; rw [mul_comm, sum_map_mul]
  simp only [h2]
  rw [sum_finset_list]
  refine sum_map_congr fun p _ => ?_
  have : ∑ k, w p * inc p k * (x p.v - x p.u) * x k = w p * (x p.v - x p.u) * ∑ k, inc p k * x k := by
    rw [Finset.mul_sum]
    exact Finset.sum_congr rfl fun j _ => by ring
  rw [this, sum_inc_mul]
  ring

/-! ### Noise level -/

theorem hasDerivAt_zk_sigma {sigma : ℝ} (hs : sigma ≠ 0) (F : Fin n → ℝ) (p : IPair n) :
    HasDerivAt (fun s => zk s F p) (-zk sigma F p / sigma) sigma := by
  have h2 : Real.sqrt 2 ≠ 0 := by positivity
  have h1 : HasDerivAt (fun s : ℝ => 1 / (s * Real.sqrt 2)) (-(Real.sqrt 2) / (sigma * Real.sqrt 2) ^ 2) sigma := by
    have := ((hasDerivAt_id sigma).mul_const (Real.sqrt 2)).inv (by simp [hs])
    simp only [one_div]
    exact this.congr_deriv (by simp)
  have h := (h1.mul_const (p.dk : ℝ)).mul_const (F p.v - F p.u)
  refine h.congr_deriv ?_
  simp only [zk, isqrt2sig]
  field_simp

theorem hasDerivAt_list_sum {ι : Type*} (l : List ι) (f : ι → ℝ → ℝ) (f' : ι → ℝ) {s : ℝ}
    (h : ∀ x ∈ l, HasDerivAt (f x) (f' x) s) :
    HasDerivAt (fun s => (l.map fun x => f x s).sum) (l.map f').sum s := by
  induction l with
  | nil => simpa using hasDerivAt_const s (0 : ℝ)
  | cons a l ih =>
    simp only [List.map_cons, List.sum_cons]
    exact (h a (by simp)).add (ih fun x hx => h x (by simp [hx]))

theorem eventually_in_range_sigma {sigma : ℝ} (hs : sigma ≠ 0) (y : List (IPair n)) (F : Fin n → ℝ)
    (h : ∀ p ∈ y, -30 < zk sigma F p ∧ zk sigma F p < 100) :
    ∀ᶠ s in nhds sigma, ∀ p ∈ y, -30 < zk s F p ∧ zk s F p < 100 := by
  induction y with
  | nil => simp
  | cons p y ih =>
    have h1 := h p (by simp)
    have hc := (hasDerivAt_zk_sigma hs F p).continuousAt
    have e1 : ∀ᶠ s in nhds sigma, -30 < zk s F p := hc.eventually (lt_mem_nhds h1.1)
    have e2 : ∀ᶠ s in nhds sigma, zk s F p < 100 := hc.eventually (gt_mem_nhds h1.2)
    filter_upwards [e1, e2, ih fun q hq => h q (by simp [hq])] with G g1 g2 g3 q hq
    rcases List.mem_cons.1 hq with rfl | hq
    · exact ⟨g1, g2⟩
    · exact g3 q hq

theorem deriv_logLik_sigma {sigma : ℝ} (hs : sigma ≠ 0) (y : List (IPair n)) (F : Fin n → ℝ)
    (h : ∀ p ∈ y, -30 < zk sigma F p ∧ zk sigma F p < 100) :
    HasDerivAt (fun s => prefLogLik s y F) (prefGradHyper sigma y F) sigma := by
  have key := hasDerivAt_list_sum y (fun p s => Real.log (Phi (zk s F p)))
    (fun p => mratio (zk sigma F p) * (-zk sigma F p / sigma)) (s := sigma)
    (fun p _ => HasDerivAt.comp (h₂ := fun x => Real.log (Phi x)) (h := fun s => zk s F p) sigma
      (hasDerivAt_logPhi (zk sigma F p)) (hasDerivAt_zk_sigma hs F p))
  refine (key.congr_of_eventuallyEq ?_).congr_deriv ?_
  · filter_upwards [eventually_in_range_sigma hs y F h] with s hG
    simp only [prefLogLik]
    exact sum_map_congr fun p hp => by rw [npClip_of_mem (hG p hp).1.le (hG p hp).2.le]
  · simp only [prefGradHyper]
    rw [neg_div, div_eq_mul_inv, sum_map_mul, sum_map_neg]
    refine sum_map_congr fun p hp => ?_
    rw [pdfCdfRatio_of_mem (h p hp).1.le (h p hp).2.le]
    field_simp

theorem deriv_W_sigma {sigma : ℝ} (hs : sigma ≠ 0) (y : List (IPair n)) (F : Fin n → ℝ)
    (h : ∀ p ∈ y, -30 < zk sigma F p ∧ zk sigma F p < 100) (i j : Fin n) :
    HasDerivAt (fun s => prefW s y F i j) (prefWdHyper sigma y F i j) sigma := by
  have h2 : Real.sqrt 2 ≠ 0 := by positivity
  have h22 : Real.sqrt 2 ^ 2 = 2 := Real.sq_sqrt (by norm_num)
  have hi2 : ∀ s : ℝ, s ≠ 0 → isqrt2sig s ^ 2 = 1 / (2 * s ^ 2) := by
    intro s hs'
    simp only [isqrt2sig]
    rw [div_pow, mul_pow, h22]; ring
  have hd2 : HasDerivAt (fun s : ℝ => isqrt2sig s ^ 2) (-1 / sigma ^ 3) sigma := by
    have hb : HasDerivAt (fun s : ℝ => (2 * s ^ 2)⁻¹) (-(2 * (2 * sigma)) / (2 * sigma ^ 2) ^ 2) sigma := by
      have h3 := ((hasDerivAt_id sigma).pow 2).const_mul 2
      have h4 := h3.inv (by simp [hs])
      exact h4.congr_deriv (by simp)
    refine (hb.congr_of_eventuallyEq ?_).congr_deriv ?_
    · filter_upwards [eventually_ne_nhds hs] with s hs'
      rw [hi2 s hs', one_div]
    · field_simp
  have key := hasDerivAt_list_sum y
    (fun p s => ((p.dk : ℝ) ^ 2 * (inc p i * inc p j)) * (isqrt2sig s ^ 2 * mcurv (zk s F p)))
    (fun p => ((p.dk : ℝ) ^ 2 * (inc p i * inc p j)) * (-1 / sigma ^ 3 * mcurv (zk sigma F p) +
      isqrt2sig sigma ^ 2 * (mthird (zk sigma F p) * (-zk sigma F p / sigma)))) (s := sigma)
    (fun p _ => (hd2.mul (HasDerivAt.comp sigma (hasDerivAt_mcurv (zk sigma F p))
      (hasDerivAt_zk_sigma hs F p))).const_mul _)
  refine (key.congr_of_eventuallyEq ?_).congr_deriv ?_
  · filter_upwards [eventually_in_range_sigma hs y F h] with s hG
    rw [prefW_apply]
    refine sum_map_congr fun p hp => ?_
    rw [pdfCdfRatio_of_mem (hG p hp).1.le (hG p hp).2.le,
      pdfCdfRatio2_of_mem (hG p hp).1.le (hG p hp).2.le]
    simp only [mcurv]
    ring
  · simp only [prefWdHyper, addUpPairs_apply]
    refine sum_map_congr fun p hp => ?_
    rw [pdfCdfRatio_of_mem (h p hp).1.le (h p hp).2.le,
      pdfCdfRatio2_of_mem (h p hp).1.le (h p hp).2.le, stdNormCdf_of_mem (h p hp).1.le (h p hp).2.le,
      stdNormPdf_eq, hi2 sigma hs]
    have := (Phi_pos (zk sigma F p)).ne'
    simp only [mcurv, mthird, mratio]
    field_simp
    ring

end Lop
