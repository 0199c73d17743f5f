import Verif.Proofs.CovGrad
import Mathlib.Data.Fin.VecNotation

/-! # Properties C34, C35 – kernel gradients -/

namespace Lop.Props

open Lop.Spec

variable {d n m : Nat}

/-! ## C34 pointwise gradients -/

/-- C34, composition: in every sum/product tree, if the leaves report their own derivatives correctly
then so does the tree, in the order of `get_param`. -/
theorem C34_composition_partial (k : KExpr ℝ (Pt d)) (u v : Pt d)
    (h : AllLeaves (fun l => ∃ g, l.gradient u v = .ok g ∧ IsGradient (.leaf l) u v g) k) :
    ∃ g, k.gradient u v = .ok g ∧ IsGradient k u v g := gradient_compose k u v h

/-- C34 for all sums and products of linear kernels: `gradient` lists exactly the partial
derivatives. -/
theorem C34_linear_partial (k : KExpr ℝ (Pt d)) (u v : Pt d) (h : AllLeaves IsLinear k) :
    ∃ g, k.gradient u v = .ok g ∧ IsGradient k u v g := by
  refine gradient_compose k u v ?_
  induction k with
  | leaf l =>
    cases l with
    | linear s b c => exact isGradient_linear s b c u v
    | _ => exact absurd h (by simp [AllLeaves, IsLinear])
  | dual op a b iha ihb => exact ⟨iha h.1, ihb h.2⟩

/-- C34 for the RBF kernel: the first component is the derivative in `σ`; the second component is
*twice* the derivative in the length scale. -/
theorem C34_rbf_partial (s l noise : ℝ) (hl : l ≠ 0) (u v : Pt d) :
    ∃ g0 g1, (KLeaf.rbf s l noise).gradient u v = .ok [g0, g1] ∧
      HasDerivAt (evalAt (.leaf (.rbf s l noise)) u v 0) g0 s ∧
      HasDerivAt (evalAt (.leaf (.rbf s l noise)) u v 1) (g1 / 2) l := by
  refine ⟨_, _, rfl, rbf_deriv_sigma s l u v, ?_⟩
  exact (rbf_deriv_l s l hl u v).congr_deriv (by ring)

/-- C34 is false for the RBF kernel at every pair of distinct points. -/
theorem C34_rbf_false (s l noise : ℝ) (hs : s ≠ 0) (hl : l ≠ 0) (u v : Pt d) (huv : u ≠ v) :
    ∀ g, (KLeaf.rbf s l noise).gradient u v = .ok g → ¬ IsGradient (.leaf (.rbf s l noise)) u v g := by
  intro g hg h
  cases hg
  have h1 := h.2 1 l _ rfl rfl
  have h2 : HasDerivAt (evalAt (.leaf (.rbf s l noise)) u v 1) _ l := rbf_deriv_l s l hl u v
  have h3 := h1.unique h2
  have hd : sqDist u v ≠ 0 := by
    intro h0
    apply huv
    funext i
    have := (Finset.sum_eq_zero_iff_of_nonneg
      (fun i _ => mul_self_nonneg (u i - v i))).1 h0 i (Finset.mem_univ i)
    have := mul_self_eq_zero.1 this
    linarith
  have hne : s * s * sqDist u v * Real.exp (-sqDist u v / (2 * l * l)) / (l * l * l) ≠ 0 := by
    have := (Real.exp_pos (-sqDist u v / (2 * l * l))).ne'
    positivity
  apply hne
  have e : 2 * s * s * sqDist u v * Real.exp (-sqDist u v / (2 * l * l)) / (l * l * l)
      = 2 * (s * s * sqDist u v * Real.exp (-sqDist u v / (2 * l * l)) / (l * l * l)) := by ring
  rw [e] at h3
  linarith

/-- C34 for the periodic kernel: the first component is the derivative in `σ`. -/
theorem C34_periodic_partial (s l p : ℝ) (u v : Pt d) :
    ∃ g0 g1 g2, (KLeaf.periodic s l p).gradient u v = .ok [g0, g1, g2] ∧
      HasDerivAt (evalAt (.leaf (.periodic s l p)) u v 0) g0 s :=
  ⟨_, _, _, rfl, per_deriv_sigma s l p u v⟩

/-- C34 for the periodic kernel, the other two components, with `θ = π·‖u-v‖₁/p`: the reported length
scale derivative is the true one with `2 sin² θ` replaced by `-‖u-v‖₁`, and the reported period
derivative is the true one without its factor `2 sin θ`. -/
theorem C34_periodic_wrong_factors (s l p : ℝ) (hl : l ≠ 0) (hp : p ≠ 0) (u v : Pt d) :
    ∃ g0 g1 g2 D1 D2, (KLeaf.periodic s l p).gradient u v = .ok [g0, g1, g2] ∧
      HasDerivAt (evalAt (.leaf (.periodic s l p)) u v 1) D1 l ∧
      HasDerivAt (evalAt (.leaf (.periodic s l p)) u v 2) D2 p ∧
      g1 * (2 * Real.sin (Real.pi * (∑ i, |u i - v i|) / p) ^ 2) = -D1 * ∑ i, |u i - v i| ∧
      g2 * (2 * Real.sin (Real.pi * (∑ i, |u i - v i|) / p)) = D2 := by
  refine ⟨_, _, _, _, _, rfl, per_deriv_l s l p hl u v, per_deriv_p s l p hp u v, ?_, ?_⟩
  · simp only [l1Dist]; ring
  · simp only [l1Dist]; ring

/-- C34 is false for the periodic kernel: one period apart both derivatives in the length scale and in
the period are 0, but the code reports `-2` and `-2π`. -/
theorem C34_periodic_counterexample :
    ∃ g0 g1 g2, (KLeaf.periodic 1 1 1).gradient (![0] : Pt 1) ![1] = .ok [g0, g1, g2] ∧
      ¬ HasDerivAt (evalAt (.leaf (.periodic 1 1 1)) (![0] : Pt 1) ![1] 1) g1 1 ∧
      ¬ HasDerivAt (evalAt (.leaf (.periodic 1 1 1)) (![0] : Pt 1) ![1] 2) g2 1 := by
  refine ⟨_, _, _, rfl, ?_, ?_⟩
  · intro h
    have h2 : HasDerivAt (evalAt (.leaf (.periodic 1 1 1)) (![0] : Pt 1) ![1] 1) _ 1 :=
      per_deriv_l 1 1 1 one_ne_zero _ _
    have := h.unique h2
    have hd : l1Dist (![0] : Pt 1) ![1] = 1 := by simp [l1Dist]
    rw [hd] at this
    simp [perExp, hd] at this
  · intro h
    have h2 : HasDerivAt (evalAt (.leaf (.periodic 1 1 1)) (![0] : Pt 1) ![1] 2) _ 1 :=
      per_deriv_p 1 1 1 one_ne_zero _ _
    have := h.unique h2
    have hd : l1Dist (![0] : Pt 1) ![1] = 1 := by simp [l1Dist]
    rw [hd] at this
    simp [perExp, hd] at this

/-- The gradient of any kernel containing a zeroed leaf raises `TypeError` unless an earlier leaf
does. -/
theorem C34_zeroed_raises (k : KExpr ℝ (Pt d)) (u v : Pt d) (h : ¬ AllLeaves NotZeroed k) :
    k.gradient u v = .error .typeError := by
  have ok : ∀ k : KExpr ℝ (Pt d), AllLeaves NotZeroed k → ∃ g, k.gradient u v = .ok g := by
    intro k hk
    induction k with
    | leaf l =>
      cases l with
      | zeroed => exact absurd hk (by simp [AllLeaves, NotZeroed])
      | _ => exact ⟨_, rfl⟩
    | dual op a b iha ihb =>
      obtain ⟨ga, ha⟩ := iha hk.1
      obtain ⟨gb, hb⟩ := ihb hk.2
      simp only [KExpr.gradient, ha, hb]
      exact ⟨_, rfl⟩
  induction k with
  | leaf l =>
    cases l with
    | zeroed => rfl
    | _ => exact absurd (by simp [AllLeaves, NotZeroed]) h
  | dual op a b iha ihb =>
    by_cases ha : AllLeaves NotZeroed a
    · obtain ⟨ga, hga⟩ := ok a ha
      have hb : ¬ AllLeaves NotZeroed b := fun hb => h ⟨ha, hb⟩
      simp only [KExpr.gradient, hga, ihb hb]
    · simp only [KExpr.gradient, iha ha]

example : AllLeaves IsLinear
    (.dual .mul (.leaf (.linear 1 2 3)) (.dual .add (.leaf (.linear 1 1 0)) (.leaf (.linear 2 0 1))) :
      KExpr ℝ (Pt 2)) := by simp [AllLeaves, IsLinear]

/-! ## C35 matrix gradients -/

/-- C35, layout: for sums of kernels `cov_gradient` returns a tuple with one matrix per parameter. -/
theorem C35_layout_partial (k : KExpr ℝ (Pt d)) (hs : OnlySums k) (X : Fin n → Pt d)
    (Y : Fin m → Pt d) (hn : 0 < n) :
    ∃ gs, k.covGradient X Y = .ok (.tuple gs) ∧ gs.length = k.getParam.length := by
  have hex : ∃ g, k.covGradient X Y = .ok g ∧ ∃ gs, g = .tuple gs := by
    induction k with
    | leaf l =>
      cases l with
      | zeroed s l z noise =>
        have h1 : ¬ n = 0 := by omega
        have h3 : ¬ (n = 1 ∧ n = 0) := by omega
        have h4 : ¬ (1 = m ∧ 1 = 0) := by omega
        simp only [KExpr.covGradient, KLeaf.covGradient, if_neg h1, rbfCov_ok h3, rbfCov_ok h4]
        exact ⟨_, rfl, _, rfl⟩
      | _ => exact ⟨_, rfl, _, rfl⟩
    | dual op a b iha ihb =>
      cases op with
      | mul => exact absurd hs (by simp [OnlySums])
      | add =>
        obtain ⟨_, ha, ga, rfl⟩ := iha hs.1
        obtain ⟨_, hb, gb, rfl⟩ := ihb hs.2
        exact ⟨.tuple (ga ++ gb), by simp only [KExpr.covGradient, ha, hb, GradVal.add], _, rfl⟩
  obtain ⟨_, hg, gs, rfl⟩ := hex
  exact ⟨gs, hg, ((covGradient_sum_len k X Y hg).1 hs).2⟩

/-- C35 for sums: if the leaves report the entrywise derivatives of their matrices, so does the sum, in
parameter order. -/
theorem C35_composition_partial (k : KExpr ℝ (Pt d)) (hs : OnlySums k) (X : Fin n → Pt d)
    (Y : Fin m → Pt d) (hn : 0 < n)
    (h : AllLeaves (fun l => ∃ gs, l.covGradient X Y = .ok (.tuple gs) ∧
      IsCovGradient (.leaf l) X Y gs) k) :
    ∃ gs, k.covGradient X Y = .ok (.tuple gs) ∧ IsCovGradient k X Y gs :=
  covGradient_compose k hs X Y hn h

/-- C35 for all sums of linear kernels. -/
theorem C35_linear_partial (k : KExpr ℝ (Pt d)) (hs : OnlySums k) (hlin : AllLeaves IsLinear k)
    (X : Fin n → Pt d) (Y : Fin m → Pt d) (hn : 0 < n) :
    ∃ gs, k.covGradient X Y = .ok (.tuple gs) ∧ IsCovGradient k X Y gs := by
  refine covGradient_compose k hs X Y hn ?_
  clear hs
  induction k with
  | leaf l =>
    cases l with
    | linear s b c => exact linear_covGradient s b c X Y
    | _ => exact absurd hlin (by simp [AllLeaves, IsLinear])
  | dual op a b iha ihb => exact ⟨iha hlin.1, ihb hlin.2⟩

/-- C35 for the RBF kernel: the first matrix is the entrywise derivative in `σ`, the second is twice
the entrywise derivative in the length scale. -/
theorem C35_rbf_partial (s l noise : ℝ) (hl : l ≠ 0) (X : Fin n → Pt d) (Y : Fin m → Pt d) :
    ∃ G0 G1, (KLeaf.rbf s l noise).covGradient X Y = .ok (.tuple [G0, G1]) ∧
      ∀ i j, HasDerivAt (covAt (.leaf (.rbf s l noise)) X Y i j 0) (G0 i j) s ∧
        HasDerivAt (covAt (.leaf (.rbf s l noise)) X Y i j 1) (G1 i j / 2) l := by
  refine ⟨_, _, rfl, fun i j => ?_⟩
  have h2 : ¬ (n = m ∧ n = 0) := by have := i.pos; omega
  have e0 : covAt (.leaf (.rbf s l noise)) X Y i j 0
      = fun t => rbfEval t l (X i) (Y j) + noiseTerm noise X Y i j := by
    funext t
    simp only [covAt, KExpr.getParam, KLeaf.getParam, List.set_cons_zero, KExpr.setParam,
      KLeaf.setParam, Except.map, KExpr.cov, KLeaf.cov, rbfCov_ok h2, Matrix.of_apply]
  have e1 : covAt (.leaf (.rbf s l noise)) X Y i j 1
      = fun t => rbfEval s t (X i) (Y j) + noiseTerm noise X Y i j := by
    funext t
    simp only [covAt, KExpr.getParam, KLeaf.getParam, List.set_cons_succ, List.set_cons_zero,
      KExpr.setParam, KLeaf.setParam, Except.map, KExpr.cov, KLeaf.cov, rbfCov_ok h2, Matrix.of_apply]
  rw [e0, e1]
  constructor
  · exact (rbf_deriv_sigma s l (X i) (Y j)).add_const _
  · refine ((rbf_deriv_l s l hl (X i) (Y j)).add_const _).congr_deriv ?_
    simp only [rbfCovGrad, Matrix.of_apply]
    ring

/-- C35 for the zeroed kernel without noise. With `e(x, y) = exp(-‖x-y‖²/2l²)` and the zero point `z`
the matrix is `σ²(e(x, y) - e(x, z) e(z, y))`. The reported matrices are not its derivatives: the code
forgets the division by `σ²` of the second term in both (a factor `2σ²` after differentiation in `σ`,
`σ²` in `l`), and doubles every derivative in `l`. -/
theorem C35_zeroed_wrong_factors (s l : ℝ) (z : Option (Pt d)) (hl : l ≠ 0)
    (X : Fin n → Pt d) (Y : Fin m → Pt d) (hn : 0 < n) :
    ∃ G0 G1, (KLeaf.zeroed s l z 0).covGradient X Y = .ok (.tuple [G0, G1]) ∧
      ∀ i j, ∃ A B R S, A = Real.exp (-(∑ k, (X i k - Y j k) ^ 2) / (2 * l ^ 2)) ∧
        B = Real.exp (-(∑ k, (X i k - (z.getD 0) k) ^ 2) / (2 * l ^ 2)) *
          Real.exp (-(∑ k, ((z.getD 0) k - Y j k) ^ 2) / (2 * l ^ 2)) ∧
        HasDerivAt (fun t => Real.exp (-(∑ k, (X i k - Y j k) ^ 2) / (2 * t ^ 2))) R l ∧
        HasDerivAt (fun t => Real.exp (-(∑ k, (X i k - (z.getD 0) k) ^ 2) / (2 * t ^ 2)) *
          Real.exp (-(∑ k, ((z.getD 0) k - Y j k) ^ 2) / (2 * t ^ 2))) S l ∧
        HasDerivAt (covAt (.leaf (.zeroed s l z 0)) X Y i j 0) (2 * s * (A - B)) s ∧
        HasDerivAt (covAt (.leaf (.zeroed s l z 0)) X Y i j 1) (s ^ 2 * (R - S)) l ∧
        G0 i j = 2 * s * (A - 2 * s ^ 2 * B) ∧
        G1 i j = 2 * s ^ 2 * (R - s ^ 2 * S) := by
  have h3 : ¬ (n = 1 ∧ n = 0) := by omega
  have h4 : ¬ (1 = m ∧ 1 = 0) := by omega
  have h5 : ¬ (n = m ∧ n = 0) := by omega
  have h1 : ¬ n = 0 := by omega
  have hnz : ∀ {a b : Nat} (U : Fin a → Pt d) (V : Fin b → Pt d) i j, noiseTerm 0 U V i j = 0 := by
    intro a b U V i j
    simp [noiseTerm]
  have hsq : ∀ (x y : Pt d) (t : ℝ), -sqDist x y / (2 * t * t) = -(∑ k, (x k - y k) ^ 2) / (2 * t ^ 2) := by
    intro x y t
    simp only [sqDist, ← pow_two]
    ring
  refine ⟨_, _, by simp only [KLeaf.covGradient, if_neg h1, rbfCov_ok h3, rbfCov_ok h4]; rfl, fun i j => ?_⟩
  have hd : ∀ (x y : Pt d), HasDerivAt (fun t : ℝ => Real.exp (-(∑ k, (x k - y k) ^ 2) / (2 * t ^ 2)))
      (sqDist x y * Real.exp (-(∑ k, (x k - y k) ^ 2) / (2 * l ^ 2)) / (l * l * l)) l := by
    intro x y
    have := rbf_deriv_l 1 l hl x y
    simp only [rbfEval, one_mul, hsq] at this
    exact this
  have hval : ∀ t r : ℝ, ∀ c, (KLeaf.zeroed t r z 0).cov X Y = .ok c → c i j =
      t ^ 2 * (Real.exp (-(∑ k, (X i k - Y j k) ^ 2) / (2 * r ^ 2)) -
        Real.exp (-(∑ k, (X i k - (z.getD 0) k) ^ 2) / (2 * r ^ 2)) *
          Real.exp (-(∑ k, ((z.getD 0) k - Y j k) ^ 2) / (2 * r ^ 2))) := by
    intro t r c hc
    simp only [KLeaf.cov, zeroedCov, if_neg h1, rbfCov_ok h3, rbfCov_ok h4, rbfCov_ok h5,
      Except.ok.injEq] at hc
    subst hc
    simp only [Matrix.of_apply, hnz, rbfEval, hsq, zeroPt, add_zero]
    by_cases ht : t = 0
    · subst ht; simp
    · field_simp
  have hok : ∀ t r : ℝ, ∃ c, (KLeaf.zeroed t r z 0).cov X Y = .ok c := by
    intro t r
    simp only [KLeaf.cov, zeroedCov, if_neg h1, rbfCov_ok h3, rbfCov_ok h4, rbfCov_ok h5]
    exact ⟨_, rfl⟩
  have e0 : covAt (.leaf (.zeroed s l z 0)) X Y i j 0 = fun t => t ^ 2 *
      (Real.exp (-(∑ k, (X i k - Y j k) ^ 2) / (2 * l ^ 2)) -
        Real.exp (-(∑ k, (X i k - (z.getD 0) k) ^ 2) / (2 * l ^ 2)) *
          Real.exp (-(∑ k, ((z.getD 0) k - Y j k) ^ 2) / (2 * l ^ 2))) := by
    funext t
    obtain ⟨c, hc⟩ := hok t l
    rw [← hval t l c hc]
    simp only [covAt, KExpr.getParam, KLeaf.getParam, List.set_cons_zero, KExpr.setParam,
      KLeaf.setParam, Except.map, KExpr.cov, hc]
  have e1 : covAt (.leaf (.zeroed s l z 0)) X Y i j 1 = fun t => s ^ 2 *
      (Real.exp (-(∑ k, (X i k - Y j k) ^ 2) / (2 * t ^ 2)) -
        Real.exp (-(∑ k, (X i k - (z.getD 0) k) ^ 2) / (2 * t ^ 2)) *
          Real.exp (-(∑ k, ((z.getD 0) k - Y j k) ^ 2) / (2 * t ^ 2))) := by
    funext t
    obtain ⟨c, hc⟩ := hok s t
    rw [← hval s t c hc]
    simp only [covAt, KExpr.getParam, KLeaf.getParam, List.set_cons_succ, List.set_cons_zero,
      KExpr.setParam, KLeaf.setParam, Except.map, KExpr.cov, hc]
  have hR := hd (X i) (Y j)
  have hS := (hd (X i) (z.getD 0)).mul (hd (z.getD 0) (Y j))
  refine ⟨_, _, _, _, rfl, rfl, hR, hS, ?_, ?_, ?_, ?_⟩
  · rw [e0]
    have h := (hasDerivAt_pow 2 s).mul_const
      (Real.exp (-(∑ k, (X i k - Y j k) ^ 2) / (2 * l ^ 2)) -
        Real.exp (-(∑ k, (X i k - (z.getD 0) k) ^ 2) / (2 * l ^ 2)) *
          Real.exp (-(∑ k, ((z.getD 0) k - Y j k) ^ 2) / (2 * l ^ 2)))
    exact h.congr_deriv (by simp)
  · rw [e1]
    exact (hR.sub hS).const_mul (s ^ 2)
  · simp only [Matrix.of_apply, rbfCovGrad, hnz, rbfEval, hsq, zeroPt, add_zero]
    ring
  · simp only [Matrix.of_apply, rbfCovGrad, hnz, rbfEval, hsq, zeroPt, add_zero]
    ring

/-- C35 is false for every kernel expression containing a product: `cov_gradient` raises or returns
too few matrices. -/
theorem C35_product_false (k : KExpr ℝ (Pt d)) (hs : ¬ OnlySums k) (X : Fin n → Pt d)
    (Y : Fin m → Pt d) (g : GradVal n m) (h : k.covGradient X Y = .ok g) :
    g.mats.length < k.getParam.length ∧ ¬ IsCovGradient k X Y g.mats := by
  have := (covGradient_sum_len k X Y h).2 hs
  exact ⟨this, fun hg => by have := hg.1; omega⟩

/-- C35: products of kernels with different numbers of parameters raise `ValueError`, products with
equal numbers silently return the entrywise *sums* of the parts (half as many matrices). -/
theorem C35_product_counterexample (X : Fin n → Pt d) (Y : Fin m → Pt d) (hn : 0 < n) :
    (KExpr.dual .mul (.leaf (.rbf 1 1 0)) (.leaf (.linear 1 0 0))).covGradient X Y
        = .error .valueError ∧
      ∃ g, (KExpr.dual .mul (.leaf (.linear 1 0 0)) (.leaf (.linear 1 0 0))).covGradient X Y = .ok g ∧
        g.mats.length = 3 ∧
        (KExpr.dual .mul (.leaf (.linear 1 0 0)) (.leaf (.linear 1 0 0)) : KExpr ℝ (Pt d)).getParam.length
          = 6 := by
  have h2 : ¬ (n = m ∧ n = 0) := by omega
  refine ⟨?_, _, rfl, rfl, rfl⟩
  simp only [KExpr.covGradient, KLeaf.covGradient, KExpr.cov, KLeaf.cov, rbfCov_ok h2, GradVal.mulMat,
    GradVal.mats, GradVal.add, List.map_cons, List.map_nil, List.length_cons, List.length_nil]
  rfl

/-- C35, what a product of two kernels with equally many parameters reports: its `q`-th matrix is the
sum of the derivative of the product in the `q`-th parameter of the first factor and its derivative in the
`q`-th parameter of the second. -/
theorem C35_product_sums (a b : KExpr ℝ (Pt d)) (X : Fin n → Pt d) (Y : Fin m → Pt d)
    (ga gb : GradVal n m) (ca cb : Matrix (Fin n) (Fin m) ℝ) (ha : a.covGradient X Y = .ok ga)
    (hb : b.covGradient X Y = .ok gb) (hca : a.cov X Y = .ok ca) (hcb : b.cov X Y = .ok cb)
    (hlen : ga.mats.length = gb.mats.length) :
    ∃ g, (KExpr.dual .mul a b).covGradient X Y = .ok g ∧ g.mats.length = ga.mats.length ∧
      ∀ (q : Nat) A B, ga.mats[q]? = some A → gb.mats[q]? = some B →
        ∃ G, g.mats[q]? = some G ∧ ∀ i j, G i j = A i j * cb i j + B i j * ca i j := by
  have hm : ∀ (g : GradVal n m) M, (g.mulMat M).mats
      = g.mats.map fun A => Matrix.of fun i j => A i j * M i j := fun _ _ => rfl
  have hadd : ∀ (x y : GradVal n m) M N, x.mats.length = y.mats.length →
      (x.mulMat M).add (y.mulMat N) = .ok (.array (List.zipWith
        (fun A B => Matrix.of fun i j => A i j + B i j) (x.mulMat M).mats (y.mulMat N).mats)) := by
    intro x y M N h
    have h2 : (x.mulMat M).mats.length = (y.mulMat N).mats.length := by simp [hm, h]
    exact if_pos h2
  refine ⟨.array (List.zipWith (fun A B => Matrix.of fun i j => A i j + B i j) (ga.mulMat cb).mats
    (gb.mulMat ca).mats), ?_, ?_, ?_⟩
  · simp only [KExpr.covGradient, ha, hb, hca, hcb]
    exact hadd _ _ _ _ hlen
  · change (List.zipWith _ _ _).length = _
    simp [hm, hlen]
  · intro q A B hA hB
    refine ⟨Matrix.of fun i j => A i j * cb i j + B i j * ca i j, ?_, fun i j => rfl⟩
    change (List.zipWith _ _ _)[q]? = _
    simp [hm, List.getElem?_zipWith, hA, hB]

/-- The hypotheses of `C35_product_sums` hold for two linear kernels. -/
example (X : Fin 1 → Pt 1) : ∃ ga gb ca cb,
    (KExpr.leaf (.linear 1 2 3)).covGradient X X = .ok ga ∧
    (KExpr.leaf (.linear 1 1 0)).covGradient X X = .ok gb ∧
    (KExpr.leaf (.linear 1 2 3)).cov X X = .ok ca ∧ (KExpr.leaf (.linear 1 1 0)).cov X X = .ok cb ∧
    ga.mats.length = gb.mats.length :=
  ⟨_, _, _, _, rfl, rfl, rfl, rfl, rfl⟩

/-- C35 for the periodic kernel: every reported matrix is the corresponding pointwise derivative of
`gradient` with the factor `exp(-2 sin²θ/l²)` replaced by `exp(-‖x-y‖²/2l²)`. -/
theorem C35_periodic_wrong_factors (s l p : ℝ) (X : Fin n → Pt d) (Y : Fin m → Pt d) :
    ∃ G0 G1 G2, (KLeaf.periodic s l p).covGradient X Y = .ok (.tuple [G0, G1, G2]) ∧
      ∀ i j, ∃ g0 g1 g2 e r, (KLeaf.periodic s l p).gradient (X i) (Y j) = .ok [g0, g1, g2] ∧
        e = Real.exp (-2 * Real.sin (Real.pi * (∑ k, |X i k - Y j k|) / p) ^ 2 / l ^ 2) ∧
        r = Real.exp (-(∑ k, (X i k - Y j k) ^ 2) / (2 * l ^ 2)) ∧
        G0 i j * e = g0 * r ∧ G1 i j * e = g1 * r ∧ G2 i j * e = g2 * r := by
  refine ⟨_, _, _, rfl, fun i j => ⟨_, _, _, _, _, rfl, rfl, rfl, ?_⟩⟩
  have e1 : perExp l p (X i) (Y j) =
      Real.exp (-2 * Real.sin (Real.pi * (∑ k, |X i k - Y j k|) / p) ^ 2 / l ^ 2) := by
    simp only [perExp, l1Dist]; congr 1; ring
  have e2 : Real.exp (-sqDist (X i) (Y j) / (2 * l * l)) =
      Real.exp (-(∑ k, (X i k - Y j k) ^ 2) / (2 * l ^ 2)) := by
    congr 1
    simp only [sqDist, ← pow_two]
    ring
  simp only [Matrix.of_apply, e1, e2, l1Dist]
  refine ⟨by ring, by ring, by ring⟩

/-- C35 is false for the periodic kernel alone: one period apart the code reports derivative
`2 exp(-1/2)` in `σ`, the true value is 2. -/
theorem C35_periodic_counterexample :
    ∃ G0 G1 G2, (KLeaf.periodic 1 1 1).covGradient (fun _ : Fin 1 => (![0] : Pt 1))
        (fun _ : Fin 1 => ![1]) = .ok (.tuple [G0, G1, G2]) ∧
      ¬ HasDerivAt (covAt (.leaf (.periodic 1 1 1)) (fun _ : Fin 1 => (![0] : Pt 1))
        (fun _ : Fin 1 => ![1]) 0 0 0) (G0 0 0) 1 := by
  refine ⟨_, _, _, rfl, fun h => ?_⟩
  have h2 : HasDerivAt (covAt (.leaf (.periodic 1 1 1)) (fun _ : Fin 1 => (![0] : Pt 1))
      (fun _ : Fin 1 => ![1]) 0 0 0) _ 1 := per_deriv_sigma 1 1 1 _ _
  have := h.unique h2
  have hd : l1Dist (![0] : Pt 1) ![1] = 1 := by simp [l1Dist]
  simp [perExp, hd, sqDist] at this

example : OnlySums (.dual .add (.leaf (.linear 1 2 3)) (.leaf (.linear 1 1 0)) : KExpr ℝ (Pt 2)) ∧
    AllLeaves IsLinear (.dual .add (.leaf (.linear 1 2 3)) (.leaf (.linear 1 1 0)) :
      KExpr ℝ (Pt 2)) := by simp [OnlySums, AllLeaves, IsLinear]

/-- The hypothesis of `C35_product_false` holds for a product of linear kernels, which returns. -/
example (X : Fin 1 → Pt 1) :
    ¬ OnlySums (.dual .mul (.leaf (.linear 1 2 3)) (.leaf (.linear 1 1 0)) : KExpr ℝ (Pt 1)) ∧
    ∃ g, (KExpr.dual .mul (.leaf (.linear 1 2 3)) (.leaf (.linear 1 1 0))).covGradient X X = .ok g :=
  ⟨by simp [OnlySums], _, rfl⟩

end Lop.Props
