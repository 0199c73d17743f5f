import Verif.Proofs.CovEntries
import Verif.Proofs.Hyper
import Mathlib.Analysis.SpecialFunctions.ExpDeriv
import Mathlib.Analysis.SpecialFunctions.Trigonometric.Deriv
import Mathlib.Analysis.Calculus.Deriv.Mul
import Mathlib.Analysis.Calculus.Deriv.Inv
import Mathlib.Analysis.Calculus.Deriv.Pow
import Mathlib.Analysis.Calculus.Deriv.Add

/-! Derivatives of kernels and covariance matrices. -/

namespace Lop

open Spec

variable {d n m : Nat}

/-! ## Replacing one parameter in a composite kernel -/

theorem setParam_set_ok (k : KExpr ℝ (Pt d)) (j : Nat) (t : ℝ) :
    ∃ k', k.setParam (k.getParam.set j t) = .ok k' := by
  obtain ⟨k', h, _⟩ := expr_set k (k.getParam.set j t) (by rw [List.length_set, expr_len])
  exact ⟨k', h⟩

theorem setParam_dual_left (op : KOp) (a b : KExpr ℝ (Pt d)) (j : Nat) (t : ℝ)
    (hj : j < a.getParam.length) {a'} (ha : a.setParam (a.getParam.set j t) = .ok a') :
    (KExpr.dual op a b).setParam ((KExpr.dual op a b).getParam.set j t) = .ok (.dual op a' b) := by
  have hb : b.setParam b.getParam = .ok b := by simpa using expr_get_set b []
  simp only [KExpr.setParam, KExpr.getParam, List.set_append_left _ _ hj]
  rw [List.take_left' (by simp), List.drop_left' (by simp), ha, hb]

theorem setParam_dual_right (op : KOp) (a b : KExpr ℝ (Pt d)) (j : Nat) (t : ℝ)
    {b'} (hb : b.setParam (b.getParam.set j t) = .ok b') :
    (KExpr.dual op a b).setParam ((KExpr.dual op a b).getParam.set (a.getParam.length + j) t)
      = .ok (.dual op a b') := by
  have ha : a.setParam a.getParam = .ok a := by simpa using expr_get_set a []
  simp only [KExpr.setParam, KExpr.getParam]
  rw [List.set_append_right _ _ (by omega), Nat.add_sub_cancel_left, List.take_left' rfl,
    List.drop_left' rfl, ha, hb]

theorem evalAt_dual_left (op : KOp) (a b : KExpr ℝ (Pt d)) (u v : Pt d) (j : Nat)
    (hj : j < a.getParam.length) :
    evalAt (.dual op a b) u v j = fun t => match op with
      | .add => evalAt a u v j t + b.eval u v
      | .mul => evalAt a u v j t * b.eval u v := by
  funext t
  obtain ⟨a', ha⟩ := setParam_set_ok a j t
  simp only [evalAt, setParam_dual_left op a b j t hj ha, ha]
  cases op <;> rfl

theorem evalAt_dual_right (op : KOp) (a b : KExpr ℝ (Pt d)) (u v : Pt d) (j : Nat) :
    evalAt (.dual op a b) u v (a.getParam.length + j) = fun t => match op with
      | .add => a.eval u v + evalAt b u v j t
      | .mul => a.eval u v * evalAt b u v j t := by
  funext t
  obtain ⟨b', hb⟩ := setParam_set_ok b j t
  simp only [evalAt, setParam_dual_right op a b j t hb, hb]
  cases op <;> rfl

/-- The gradient of a composite kernel is right when those of its parts are. -/
theorem isGradient_dual {op : KOp} {a b : KExpr ℝ (Pt d)} {u v : Pt d} {ga gb : List ℝ}
    (ha : IsGradient a u v ga) (hb : IsGradient b u v gb) :
    IsGradient (.dual op a b) u v (match op with
      | .add => ga ++ gb
      | .mul => ga.map (· * b.eval u v) ++ gb.map (· * a.eval u v)) := by
  refine ⟨by cases op <;> simp [KExpr.getParam, ha.1, hb.1], fun j θ g' hθ hg => ?_⟩
  simp only [KExpr.getParam] at hθ
  by_cases hj : j < a.getParam.length
  · rw [List.getElem?_append_left hj] at hθ
    rw [evalAt_dual_left op a b u v j hj]
    cases op with
    | add =>
      simp only at hg
      rw [List.getElem?_append_left (by rw [ha.1]; exact hj)] at hg
      exact (ha.2 j θ g' hθ hg).add_const _
    | mul =>
      simp only at hg
      rw [List.getElem?_append_left (by rw [List.length_map, ha.1]; exact hj), List.getElem?_map,
        Option.map_eq_some_iff] at hg
      obtain ⟨g0, hg0, rfl⟩ := hg
      exact (ha.2 j θ g0 hθ hg0).mul_const _
  · obtain ⟨i, rfl⟩ := Nat.exists_eq_add_of_le (not_lt.1 hj)
    rw [List.getElem?_append_right (by omega), Nat.add_sub_cancel_left] at hθ
    rw [evalAt_dual_right op a b u v i]
    cases op with
    | add =>
      simp only at hg
      rw [List.getElem?_append_right (by rw [ha.1]; omega), ha.1, Nat.add_sub_cancel_left] at hg
      exact (hb.2 i θ g' hθ hg).const_add _
    | mul =>
      simp only at hg
      rw [List.getElem?_append_right (by rw [List.length_map, ha.1]; omega), List.length_map, ha.1,
        Nat.add_sub_cancel_left, List.getElem?_map, Option.map_eq_some_iff] at hg
      obtain ⟨g0, hg0, rfl⟩ := hg
      have := (hb.2 i θ g0 hθ hg0).const_mul (a.eval u v)
      simp only [mul_comm g0]
      exact this

theorem gradient_compose (k : KExpr ℝ (Pt d)) (u v : Pt d)
    (h : AllLeaves (fun l => ∃ g, l.gradient u v = .ok g ∧ IsGradient (.leaf l) u v g) k) :
    ∃ g, k.gradient u v = .ok g ∧ IsGradient k u v g := by
  induction k with
  | leaf l => exact h
  | dual op a b iha ihb =>
    obtain ⟨ga, ha1, ha2⟩ := iha h.1
    obtain ⟨gb, hb1, hb2⟩ := ihb h.2
    refine ⟨_, ?_, isGradient_dual (op := op) ha2 hb2⟩
    cases op <;> simp only [KExpr.gradient, ha1, hb1]

/-! ## Leaf derivatives -/

theorem rbf_deriv_sigma (s l : ℝ) (u v : Pt d) :
    HasDerivAt (fun t => rbfEval t l u v) (2 * s * Real.exp (-sqDist u v / (2 * l * l))) s := by
  have h : HasDerivAt (fun t : ℝ => t * t) (1 * s + s * 1) s := (hasDerivAt_id s).mul (hasDerivAt_id s)
  have := h.mul_const (Real.exp (-sqDist u v / (2 * l * l)))
  refine this.congr_deriv ?_
  ring

theorem rbf_deriv_l (s l : ℝ) (hl : l ≠ 0) (u v : Pt d) :
    HasDerivAt (fun t => rbfEval s t u v)
      (s * s * sqDist u v * Real.exp (-sqDist u v / (2 * l * l)) / (l * l * l)) l := by
  have h1 : HasDerivAt (fun t : ℝ => 2 * t * t) (2 * 1 * l + 2 * l * 1) l :=
    ((hasDerivAt_id l).const_mul 2).mul (hasDerivAt_id l)
  have h2 : HasDerivAt (fun t : ℝ => -sqDist u v / (2 * t * t))
      ((0 * (2 * l * l) - -sqDist u v * (2 * 1 * l + 2 * l * 1)) / (2 * l * l) ^ 2) l :=
    (hasDerivAt_const l (-sqDist u v)).div h1 (by positivity)
  have h3 := (h2.exp).const_mul (s * s)
  refine h3.congr_deriv ?_
  field_simp
  ring

theorem lin_deriv_sigma (s b c : ℝ) (u v : Pt d) :
    HasDerivAt (fun t => linEval t b c u v) (∑ i, 2 * s * (u i - c) * (v i - c)) s := by
  have h1 : HasDerivAt (fun t : ℝ => t ^ 2) (2 * s) s := by
    simpa using hasDerivAt_pow 2 s
  have := (h1.mul_const (∑ i, (u i - c) * (v i - c))).const_add (b ^ 2)
  refine this.congr_deriv ?_
  rw [Finset.mul_sum]
  exact Finset.sum_congr rfl fun i _ => by ring

theorem lin_deriv_b (s b c : ℝ) (u v : Pt d) :
    HasDerivAt (fun t => linEval s t c u v) (2 * b) b := by
  have h1 : HasDerivAt (fun t : ℝ => t ^ 2) (2 * b) b := by
    simpa using hasDerivAt_pow 2 b
  exact h1.add_const _

theorem lin_deriv_c (s b c : ℝ) (u v : Pt d) :
    HasDerivAt (fun t => linEval s b t u v) (s * s * ∑ i, (2 * c - u i - v i)) c := by
  have h1 : HasDerivAt (fun t : ℝ => ∑ i, (u i - t) * (v i - t)) (∑ i, (2 * c - u i - v i)) c := by
    refine HasDerivAt.fun_sum fun i _ => ?_
    have ha : HasDerivAt (fun t : ℝ => u i - t) (-1) c := (hasDerivAt_id c).const_sub (u i)
    have hb : HasDerivAt (fun t : ℝ => v i - t) (-1) c := (hasDerivAt_id c).const_sub (v i)
    have := ha.mul hb
    refine this.congr_deriv ?_
    ring
  have := (h1.const_mul (s ^ 2)).const_add (b ^ 2)
  refine this.congr_deriv ?_
  ring

theorem per_deriv_sigma (s l p : ℝ) (u v : Pt d) :
    HasDerivAt (fun t => perEval t l p u v) (2 * s * perExp l p u v) s := by
  have h : HasDerivAt (fun t : ℝ => t * t) (1 * s + s * 1) s := (hasDerivAt_id s).mul (hasDerivAt_id s)
  have := h.mul_const (perExp l p u v)
  refine this.congr_deriv ?_
  ring

/-- The true derivative of the periodic kernel in its length scale. -/
theorem per_deriv_l (s l p : ℝ) (hl : l ≠ 0) (u v : Pt d) :
    HasDerivAt (fun t => perEval s t p u v)
      (s * s * perExp l p u v * (4 * Real.sin (Real.pi * l1Dist u v / p) ^ 2) / (l * l * l)) l := by
  have h1 : HasDerivAt (fun t : ℝ => t * t) (1 * l + l * 1) l := (hasDerivAt_id l).mul (hasDerivAt_id l)
  set q := -2 * Real.sin (Real.pi * l1Dist u v / p) * Real.sin (Real.pi * l1Dist u v / p) with hq
  have h2 : HasDerivAt (fun t : ℝ => q / (t * t))
      ((0 * (l * l) - q * (1 * l + l * 1)) / (l * l) ^ 2) l :=
    (hasDerivAt_const l q).div h1 (by positivity)
  have h3 := (h2.exp).const_mul (s * s)
  have e : (fun t => perEval s t p u v) = fun t => s * s * Real.exp (q / (t * t)) := by
    funext t; rfl
  rw [e]
  refine h3.congr_deriv ?_
  have e2 : perExp l p u v = Real.exp (q / (l * l)) := rfl
  rw [e2, hq]
  field_simp
  ring

/-- The true derivative of the periodic kernel in its period. -/
theorem per_deriv_p (s l p : ℝ) (hp : p ≠ 0) (u v : Pt d) :
    HasDerivAt (fun t => perEval s l t u v)
      (s * s * perExp l p u v * (4 * Real.pi * l1Dist u v * Real.sin (Real.pi * l1Dist u v / p)
        * Real.cos (Real.pi * l1Dist u v / p)) / (l * l * p * p)) p := by
  set D := Real.pi * l1Dist u v with hD
  have h1 : HasDerivAt (fun t : ℝ => D / t) ((0 * p - D * 1) / p ^ 2) p :=
    (hasDerivAt_const p D).div (hasDerivAt_id p) hp
  have h2 := h1.sin
  have h3 := ((h2.const_mul (-2)).mul h2).div_const (l * l)
  have h4 := (h3.exp).const_mul (s * s)
  have e : (fun t => perEval s l t u v) = fun t => s * s *
      Real.exp (-2 * Real.sin (D / t) * Real.sin (D / t) / (l * l)) := by
    funext t; rfl
  rw [e]
  have e2 : perExp l p u v = Real.exp (-2 * Real.sin (D / p) * Real.sin (D / p) / (l * l)) := rfl
  rw [e2]
  refine h4.congr_deriv ?_
  have : 4 * Real.pi * l1Dist u v = 4 * D := by rw [hD]; ring
  rw [this]
  simp only [Pi.mul_apply]
  field_simp
  ring

/-- Case analysis for leaf gradients. -/
theorem isGradient_leaf2 {k : KLeaf ℝ (Pt d)} {u v : Pt d} {a b x y : ℝ}
    (hp : k.getParam = [a, b]) (h0 : HasDerivAt (evalAt (.leaf k) u v 0) x a)
    (h1 : HasDerivAt (evalAt (.leaf k) u v 1) y b) : IsGradient (.leaf k) u v [x, y] := by
  refine ⟨by simp [KExpr.getParam, hp], fun j θ g' hθ hg => ?_⟩
  simp only [KExpr.getParam, hp] at hθ
  rcases j with _ | _ | j
  · simp only [List.getElem?_cons_zero, Option.some.injEq] at hθ hg
    subst hθ; subst hg; exact h0
  · simp only [zero_add, List.getElem?_cons_succ, List.getElem?_cons_zero, Option.some.injEq] at hθ hg
    subst hθ; subst hg; exact h1
  · simp at hθ

theorem isGradient_leaf3 {k : KLeaf ℝ (Pt d)} {u v : Pt d} {a b c x y z : ℝ}
    (hp : k.getParam = [a, b, c]) (h0 : HasDerivAt (evalAt (.leaf k) u v 0) x a)
    (h1 : HasDerivAt (evalAt (.leaf k) u v 1) y b) (h2 : HasDerivAt (evalAt (.leaf k) u v 2) z c) :
    IsGradient (.leaf k) u v [x, y, z] := by
  refine ⟨by simp [KExpr.getParam, hp], fun j θ g' hθ hg => ?_⟩
  simp only [KExpr.getParam, hp] at hθ
  rcases j with _ | _ | _ | j
  · simp only [List.getElem?_cons_zero, Option.some.injEq] at hθ hg
    subst hθ; subst hg; exact h0
  · simp only [zero_add, List.getElem?_cons_succ, List.getElem?_cons_zero, Option.some.injEq] at hθ hg
    subst hθ; subst hg; exact h1
  · simp only [zero_add, Nat.reduceAdd, List.getElem?_cons_succ, List.getElem?_cons_zero,
      Option.some.injEq] at hθ hg
    subst hθ; subst hg; exact h2
  · simp at hθ

theorem isGradient_linear (s b c : ℝ) (u v : Pt d) :
    ∃ g, (KLeaf.linear s b c : KLeaf ℝ (Pt d)).gradient u v = .ok g ∧
      IsGradient (.leaf (.linear s b c)) u v g :=
  ⟨_, rfl, isGradient_leaf3 rfl (lin_deriv_sigma s b c u v) (lin_deriv_b s b c u v)
    (lin_deriv_c s b c u v)⟩

/-! ## Matrix gradients -/

theorem covAt_dual_left (a b : KExpr ℝ (Pt d)) (X : Fin n → Pt d) (Y : Fin m → Pt d) (hn : 0 < n)
    {cb} (hb : b.cov X Y = .ok cb) (i : Fin n) (j : Fin m) (q : Nat) (hq : q < a.getParam.length) :
    covAt (.dual .add a b) X Y i j q = fun t => covAt a X Y i j q t + cb i j := by
  funext t
  obtain ⟨a', ha⟩ := setParam_set_ok a q t
  obtain ⟨ca, hca⟩ := cov_returns a' X Y hn
  simp only [covAt, setParam_dual_left .add a b q t hq ha, ha, KExpr.cov, hca, hb, Matrix.of_apply]

theorem covAt_dual_right (a b : KExpr ℝ (Pt d)) (X : Fin n → Pt d) (Y : Fin m → Pt d) (hn : 0 < n)
    {ca} (ha : a.cov X Y = .ok ca) (i : Fin n) (j : Fin m) (q : Nat) :
    covAt (.dual .add a b) X Y i j (a.getParam.length + q) = fun t => ca i j + covAt b X Y i j q t := by
  funext t
  obtain ⟨b', hb⟩ := setParam_set_ok b q t
  obtain ⟨cb, hcb⟩ := cov_returns b' X Y hn
  simp only [covAt, setParam_dual_right .add a b q t hb, hb, KExpr.cov, hcb, ha, Matrix.of_apply]

theorem isCovGradient_add {a b : KExpr ℝ (Pt d)} {X : Fin n → Pt d} {Y : Fin m → Pt d} (hn : 0 < n)
    {ga gb} (ha : IsCovGradient a X Y ga) (hb : IsCovGradient b X Y gb) :
    IsCovGradient (.dual .add a b) X Y (ga ++ gb) := by
  obtain ⟨ca, hca⟩ := cov_returns a X Y hn
  obtain ⟨cb, hcb⟩ := cov_returns b X Y hn
  refine ⟨by simp [KExpr.getParam, ha.1, hb.1], fun q θ G hθ hG i j => ?_⟩
  simp only [KExpr.getParam] at hθ
  by_cases hq : q < a.getParam.length
  · rw [List.getElem?_append_left hq] at hθ
    rw [List.getElem?_append_left (by rw [ha.1]; exact hq)] at hG
    rw [covAt_dual_left a b X Y hn hcb i j q hq]
    exact (ha.2 q θ G hθ hG i j).add_const _
  · obtain ⟨r, rfl⟩ := Nat.exists_eq_add_of_le (not_lt.1 hq)
    rw [List.getElem?_append_right (by omega), Nat.add_sub_cancel_left] at hθ
    rw [List.getElem?_append_right (by rw [ha.1]; omega), ha.1, Nat.add_sub_cancel_left] at hG
    rw [covAt_dual_right a b X Y hn hca i j r]
    exact (hb.2 r θ G hθ hG i j).const_add _

theorem covGradient_compose (k : KExpr ℝ (Pt d)) (hs : OnlySums k) (X : Fin n → Pt d)
    (Y : Fin m → Pt d) (hn : 0 < n)
    (h : AllLeaves (fun l => ∃ gs, l.covGradient X Y = .ok (.tuple gs) ∧
      IsCovGradient (.leaf l) X Y gs) k) :
    ∃ gs, k.covGradient X Y = .ok (.tuple gs) ∧ IsCovGradient k X Y gs := by
  induction k with
  | leaf l => exact h
  | dual op a b iha ihb =>
    cases op with
    | mul => exact absurd hs (by simp [OnlySums])
    | add =>
      obtain ⟨ga, ha1, ha2⟩ := iha hs.1 h.1
      obtain ⟨gb, hb1, hb2⟩ := ihb hs.2 h.2
      exact ⟨ga ++ gb, by simp only [KExpr.covGradient, ha1, hb1, GradVal.add],
        isCovGradient_add hn ha2 hb2⟩

theorem linear_covGradient (s b c : ℝ) (X : Fin n → Pt d) (Y : Fin m → Pt d) :
    ∃ gs, (KLeaf.linear s b c).covGradient X Y = .ok (.tuple gs) ∧
      IsCovGradient (.leaf (.linear s b c)) X Y gs := by
  refine ⟨_, rfl, rfl, fun q θ G hθ hG i j => ?_⟩
  simp only [KExpr.getParam, KLeaf.getParam] at hθ
  rcases q with _ | _ | _ | q
  · simp only [List.getElem?_cons_zero, Option.some.injEq] at hθ hG
    subst hθ; subst hG
    have := lin_deriv_sigma s b c (X i) (Y j)
    simp only [Matrix.of_apply]
    refine this.congr_deriv ?_
    rw [Finset.mul_sum]
    exact Finset.sum_congr rfl fun k _ => by ring
  · simp only [zero_add, List.getElem?_cons_succ, List.getElem?_cons_zero, Option.some.injEq] at hθ hG
    subst hθ; subst hG
    exact lin_deriv_b s b c (X i) (Y j)
  · simp only [zero_add, Nat.reduceAdd, List.getElem?_cons_succ, List.getElem?_cons_zero,
      Option.some.injEq] at hθ hG
    subst hθ; subst hG
    exact lin_deriv_c s b c (X i) (Y j)
  · simp at hθ

/-- Leaves return tuples of as many matrices as they have parameters. -/
theorem leaf_covGradient_len (l : KLeaf ℝ (Pt d)) (X : Fin n → Pt d) (Y : Fin m → Pt d) {g}
    (h : l.covGradient X Y = .ok g) : ∃ gs, g = .tuple gs ∧ gs.length = l.getParam.length := by
  cases l with
  | rbf s l noise => cases h; exact ⟨_, rfl, rfl⟩
  | linear s b c => cases h; exact ⟨_, rfl, rfl⟩
  | periodic s l p => cases h; exact ⟨_, rfl, rfl⟩
  | zeroed s l z noise =>
    simp only [KLeaf.covGradient] at h
    split at h
    · cases h
    · split at h
      · cases h; exact ⟨_, rfl, rfl⟩
      · cases h
      · cases h

theorem gradAdd_len {a b g : GradVal n m} (h : a.add b = .ok g) :
    (∃ x y, a = .tuple x ∧ b = .tuple y ∧ g = .tuple (x ++ y)) ∨
    (a.mats.length = b.mats.length ∧ g.mats.length = a.mats.length ∧ ∃ z, g = .array z) := by
  cases a with
  | tuple x =>
    cases b with
    | tuple y => cases h; exact .inl ⟨x, y, rfl, rfl, rfl⟩
    | array y =>
      simp only [GradVal.add] at h
      split at h
      · rename_i hl
        cases h
        exact .inr ⟨hl, by simp [GradVal.mats] at hl ⊢; omega, _, rfl⟩
      · cases h
  | array x =>
    simp only [GradVal.add] at h
    split at h
    · rename_i hl
      cases h
      exact .inr ⟨hl, by simp only [GradVal.mats, List.length_zipWith] at hl ⊢; omega, _, rfl⟩
    · cases h

theorem getParam_pos (k : KExpr ℝ (Pt d)) : 0 < k.getParam.length := by
  induction k with
  | leaf l => cases l <;> simp [KExpr.getParam, KLeaf.getParam]
  | dual op a b iha _ => simp only [KExpr.getParam, List.length_append]; omega

theorem covGradient_sum_len (k : KExpr ℝ (Pt d)) (X : Fin n → Pt d) (Y : Fin m → Pt d) {g}
    (h : k.covGradient X Y = .ok g) :
    (OnlySums k → (∃ gs, g = .tuple gs) ∧ g.mats.length = k.getParam.length) ∧
    (¬ OnlySums k → g.mats.length < k.getParam.length) := by
  induction k generalizing g with
  | leaf l =>
    obtain ⟨gs, rfl, hl⟩ := leaf_covGradient_len l X Y h
    exact ⟨fun _ => ⟨⟨gs, rfl⟩, hl⟩, fun hs => absurd trivial hs⟩
  | dual op a b iha ihb =>
    have pa := getParam_pos a
    have pb := getParam_pos b
    have weak : ∀ (k : KExpr ℝ (Pt d)) {g : GradVal n m},
        ((OnlySums k → (∃ gs, g = .tuple gs) ∧ g.mats.length = k.getParam.length) ∧
        (¬ OnlySums k → g.mats.length < k.getParam.length)) →
        g.mats.length ≤ k.getParam.length := by
      intro k g ⟨h1, h2⟩
      by_cases hs : OnlySums k
      · exact (h1 hs).2.le
      · exact (h2 hs).le
    cases op with
    | add =>
      simp only [KExpr.covGradient] at h
      cases ha : a.covGradient X Y with
      | error e => rw [ha] at h; cases h
      | ok ga =>
        rw [ha] at h
        cases hb : b.covGradient X Y with
        | error e => rw [hb] at h; cases h
        | ok gb =>
          rw [hb] at h
          simp only at h
          have ia := iha ha
          have ib := ihb hb
          have wa := weak a ia
          have wb := weak b ib
          simp only [KExpr.getParam, List.length_append]
          rcases gradAdd_len h with ⟨x, y, rfl, rfl, rfl⟩ | ⟨h1, h2, _⟩
          · simp only [GradVal.mats, List.length_append] at wa wb ⊢
            refine ⟨fun hs => ⟨⟨_, rfl⟩, ?_⟩, fun hs => ?_⟩
            · have e1 := (ia.1 hs.1).2
              have e2 := (ib.1 hs.2).2
              simp only [GradVal.mats] at e1 e2
              omega
            · by_cases hsa : OnlySums a
              · have hsb : ¬ OnlySums b := fun hsb => hs ⟨hsa, hsb⟩
                have := ib.2 hsb
                simp only [GradVal.mats] at this
                omega
              · have := ia.2 hsa
                simp only [GradVal.mats] at this
                omega
          · refine ⟨fun hs => ?_, fun _ => by omega⟩
            obtain ⟨⟨ga', rfl⟩, _⟩ := ia.1 hs.1
            obtain ⟨⟨gb', rfl⟩, _⟩ := ib.1 hs.2
            have := h
            simp only [GradVal.add] at this
            cases this
            have e1 := (ia.1 hs.1).2
            have e2 := (ib.1 hs.2).2
            simp only [GradVal.mats] at e1 e2
            exact ⟨⟨_, rfl⟩, by simp only [GradVal.mats, List.length_append]; omega⟩
    | mul =>
      refine ⟨fun hs => absurd hs (by simp [OnlySums]), fun _ => ?_⟩
      simp only [KExpr.covGradient] at h
      cases ha : a.covGradient X Y with
      | error e => rw [ha] at h; cases h
      | ok ga =>
        rw [ha] at h
        cases hcb : b.cov X Y with
        | error e => rw [hcb] at h; cases h
        | ok cb =>
          rw [hcb] at h
          cases hb : b.covGradient X Y with
          | error e => rw [hb] at h; cases h
          | ok gb =>
            rw [hb] at h
            cases hca : a.cov X Y with
            | error e => rw [hca] at h; cases h
            | ok ca =>
              rw [hca] at h
              simp only at h
              have wa := weak a (iha ha)
              rcases gradAdd_len h with ⟨x, y, h1, _, _⟩ | ⟨h1, h2, _⟩
              · cases h1
              · simp only [KExpr.getParam, List.length_append]
                rw [h2]
                simp only [GradVal.mulMat, GradVal.mats, List.length_map] at wa ⊢
                cases ga <;> simp only [GradVal.mats] at wa ⊢ <;> omega

end Lop
