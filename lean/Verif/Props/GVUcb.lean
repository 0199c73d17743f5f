import Verif.Proofs.GVUcb
import Verif.Spec.GVUcb
import Verif.Props.GP
import Verif.Props.Laplace
import Mathlib.LinearAlgebra.Matrix.ToLin
import Mathlib.LinearAlgebra.FiniteDimensional.Lemmas
import Mathlib.LinearAlgebra.Matrix.Nondegenerate
import Mathlib.Tactic.NormNum
import Mathlib.Tactic.FinCases

/-! # C77: the generalised-variance learner -/

namespace Lop.Props

open Lop.Spec Matrix

variable {d : Nat}

theorem npArgmaxNan_some (l : List ℝ) : npArgmaxNan (l.map some) = npArgmax l := by
  have h : (l.map some).findIdx? Option.isNone = none := by simp
  rw [npArgmaxNan, h]
  simp [Function.comp_def]

/-- The value used for a candidate, when the covariances are those of a covariance function. -/
theorem gvValue_eq {N : Nat} {c : Nat → Nat → ℝ} (h : IsCov N c) (mu : Nat → ℝ) (alpha : ℝ) {prev : List Nat}
    {i : Nat} (hp : ∀ j ∈ prev, j < N) (hi : i < N) :
    ∃ s, IsSGV c (famOf (prev ++ [i])) s ∧ gvValue c mu alpha prev i = some (mu i + alpha * s) := by
  have hl : ∀ j ∈ prev ++ [i], j < N := by
    intro j hj; simp at hj; rcases hj with hj | rfl; exacts [hp j hj, hi]
  refine ⟨_, isSGV_root h hl (by simp), ?_⟩
  rw [gvValue, npRoot_nonneg (covDet_nonneg h hl)]
  simp

/-- **C77 (choice).** For a model whose covariances are those of a covariance function, any means and
weight, and in-range sets: the greedy step returns an offered candidate together with its value, mean plus
weight times the standardised generalised variance of the candidate joined to the previous selection; no
offered candidate has a larger one, and none before it in the iteration order an equal one. -/
theorem C77_greedy {N : Nat} (m : GVModel d) {c : Nat → Nat → ℝ} (hm : m.cov N = .ok c) (h : IsCov N c)
    (mu : Nat → ℝ) (alpha : ℝ) {ind prev : List Nat} (hne : ind ≠ []) (hi : ∀ i ∈ ind, i < N)
    (hp : ∀ i ∈ prev, i < N) :
    ∃ b i s, ind[b]? = some i ∧ gvGreedy N m mu alpha ind prev = .ok (i, some (mu i + alpha * s)) ∧
      IsSGV c (famOf (prev ++ [i])) s ∧
      ∀ (k j : Nat) t, ind[k]? = some j → IsSGV c (famOf (prev ++ [j])) t →
        mu j + alpha * t ≤ mu i + alpha * s ∧ (k < b → mu j + alpha * t < mu i + alpha * s) := by
  classical
  choose f hf using fun i (hi : i < N) => gvValue_eq h mu alpha hp hi
  let g : Nat → ℝ := fun i => if hi : i < N then f i hi else 0
  have hg : ∀ i < N, IsSGV c (famOf (prev ++ [i])) (g i) ∧
      gvValue c mu alpha prev i = some (mu i + alpha * g i) := by
    intro i hi; simp only [g, dif_pos hi]; exact hf i hi
  have hv : ind.map (gvValue c mu alpha prev) = (ind.map fun i => mu i + alpha * g i).map some := by
    rw [List.map_map]; exact List.map_congr_left fun i hi' => (hg i (hi i hi')).2
  obtain ⟨b, hb⟩ := npArgmax_isOk (l := ind.map fun i => mu i + alpha * g i) (by simpa using hne)
  obtain ⟨x, hx, hmax, hfst⟩ := npArgmax_spec hb
  rw [List.getElem?_map, Option.map_eq_some_iff] at hx
  obtain ⟨i, hbi, rfl⟩ := hx
  have hiN := hi i (List.mem_of_getElem? hbi)
  refine ⟨b, i, g i, hbi, ?_, (hg i hiN).1, ?_⟩
  · rw [gvGreedy, hm]
    simp only [bind, Except.bind, hv, npArgmaxNan_some, hb]
    rw [if_neg]
    · simp [hbi]; rfl
    · push Not; exact ⟨fun _ => hp, hi⟩
  · intro k j t hk ht
    have hjN := hi j (List.mem_of_getElem? hk)
    haveI : Nonempty (Fin (prev ++ [j]).length) := ⟨⟨0, by simp⟩⟩
    rw [isSGV_unique ht (hg j hjN).1]
    exact ⟨hmax _ (List.mem_map.mpr ⟨j, List.mem_of_getElem? hk, rfl⟩),
      fun hkb => hfst k _ hkb (by rw [List.getElem?_map, hk]; rfl)⟩

/-- **C77 (first choice is by variance).** With nothing selected before, the value of a candidate is its
mean plus the weight times its *variance*. -/
theorem C77_first (c : Nat → Nat → ℝ) (mu : Nat → ℝ) (alpha : ℝ) (i : Nat) :
    gvValue c mu alpha [] i = some (mu i + alpha * c i i) := by
  simp [gvValue, npRoot, covDet]

/-- **C77 (documented bound refuted).** The class inherits the documentation `UCB = mean + alpha*sqrt(variance)`.
The first choice is not the candidate with the largest such bound. -/
theorem C77_std_counterexample :
    ∃ (c : Nat → Nat → ℝ) (mu : Nat → ℝ), IsCov 2 c ∧
      gvGreedy 2 (.gp (d := 0) c) mu 1 [0, 1] [] = .ok (1, some 4) ∧
      mu 1 + 1 * √(c 1 1) < mu 0 + 1 * √(c 0 0) := by
  refine ⟨fun a b => if a = b then (if a = 1 then 4 else 0) else 0, fun i => if i = 0 then 3 else 0, ⟨?_, ?_⟩, ?_, ?_⟩
  · intro a _ b _; by_cases hab : a = b
    · simp [hab]
    · simp [hab, Ne.symm hab]
  · intro w; simp [Fin.sum_univ_two]; nlinarith [sq_nonneg (w 1)]
  · simp [gvGreedy, GVModel.cov, C77_first, npArgmaxNan, npArgmax, argmaxFrom, bind, Except.bind, pure, Except.pure,
      List.findIdx?, List.findIdx?.go]
    norm_num
  · have : √(4 : ℝ) = 2 := by rw [show (4 : ℝ) = 2 ^ 2 by norm_num]; exact Real.sqrt_sq (by norm_num)
    simp [this]; norm_num

/-- **C77 (order of the previous selection).** The value does not depend on the order in which the set of
previous selections is listed. -/
theorem C77_perm (c : Nat → Nat → ℝ) (mu : Nat → ℝ) (alpha : ℝ) {p q : List Nat} (hpq : p.Perm q)
    (hn : p.Nodup) (i : Nat) : gvValue c mu alpha p i = gvValue c mu alpha q i := by
  rw [gvValue, gvValue, hpq.length_eq]
  by_cases hi : i ∈ p
  · rw [covDet_snoc_mem c p i hi, covDet_snoc_mem c q i (hpq.mem_iff.mp hi)]
  · rw [covDet_perm c (hpq.append_right [i]) (List.nodup_append.mpr ⟨hn, by simp, by
      intro a ha b hb hab; simp at hb; subst hb; subst hab; exact hi ha⟩)]

/-- **C77 (repeats carry no bonus).** A candidate that has been selected before is worth only its mean. -/
theorem C77_repeat (c : Nat → Nat → ℝ) (mu : Nat → ℝ) (alpha : ℝ) {p : List Nat} {i : Nat} (hi : i ∈ p) :
    gvValue c mu alpha p i = some (mu i) := by
  rw [gvValue, covDet_snoc_mem c p i hi, npRoot_nonneg le_rfl]
  have : ((p.length : ℝ) + 1)⁻¹ ≠ 0 := by positivity
  simp [Real.zero_rpow this]

/-- **C77 (diversity).** If the previous selections are not redundant, a candidate's bonus is the weight
times the root of the generalised variance of the previous selection times the variance of the candidate
left unexplained by that selection. -/
theorem C77_conditional {N : Nat} {c : Nat → Nat → ℝ} (h : IsCov N c) (mu : Nat → ℝ) (alpha : ℝ) {p : List Nat}
    (hp : ∀ j ∈ p, j < N) (hd : (famCov c (famOf p)).det ≠ 0) {i : Nat} (hi : i < N) :
    0 ≤ condVariance c (famOf p) i ∧ condVariance c (famOf p) i ≤ c i i ∧
    gvValue c mu alpha p i = some (mu i + alpha *
      ((famCov c (famOf p)).det * condVariance c (famOf p) i) ^ (1 / (p.length + 1) : ℝ)) := by
  have hs := covDet_snoc_schur c p i hd
  have hl : ∀ j ∈ p ++ [i], j < N := by
    intro j hj; simp at hj; rcases hj with hj | rfl; exacts [hp j hj, hi]
  have h0 := covDet_nonneg h hl
  have hp0 : 0 < covDet c p := lt_of_le_of_ne (covDet_nonneg h hp) (Ne.symm hd)
  refine ⟨?_, ?_, ?_⟩
  · rw [hs] at h0; exact nonneg_of_mul_nonneg_right h0 hp0
  · have hinv := (famCov_posSemidef h _ (famOf_lt hp)).inv
    have := hinv.dotProduct_mulVec_nonneg fun a => c (famOf p a) i
    have hsym : (fun a => c i (famOf p a)) = fun a => c (famOf p a) i :=
      funext fun a => h.1 i hi _ (famOf_lt hp a)
    simp only [star_trivial] at this
    rw [condVariance, hsym]; linarith
  · rw [gvValue, npRoot_nonneg h0, hs, covDet_eq]; simp

/-- **C77 (diversity, choice).** Among candidates with equal means, with positive weight, the chosen one has
the largest variance left unexplained by the previous selection. -/
theorem C77_diverse {N : Nat} (m : GVModel d) {c : Nat → Nat → ℝ} (hm : m.cov N = .ok c) (h : IsCov N c)
    (mu : Nat → ℝ) {alpha : ℝ} (ha : 0 < alpha) {ind p : List Nat} (hind : ∀ i ∈ ind, i < N)
    (hp : ∀ i ∈ p, i < N) (hd : (famCov c (famOf p)).det ≠ 0) {i : Nat} {g : Option ℝ}
    (hr : gvGreedy N m mu alpha ind p = .ok (i, g)) {j : Nat} (hj : j ∈ ind) (hmu : mu i = mu j) :
    i ∈ ind ∧ condVariance c (famOf p) j ≤ condVariance c (famOf p) i := by
  obtain ⟨b, i', s, hb, hr', hs, hmax⟩ := C77_greedy m hm h mu alpha (List.ne_nil_of_mem hj) hind hp
  rw [hr'] at hr
  obtain ⟨rfl, -⟩ : i' = i ∧ _ := by simpa using hr
  have hi := List.mem_of_getElem? hb
  refine ⟨hi, ?_⟩
  obtain ⟨k, hk⟩ := List.mem_iff_getElem?.mp hj
  have hlj : ∀ x ∈ p ++ [j], x < N := by
    intro x hx; simp at hx; rcases hx with hx | rfl; exacts [hp x hx, hind _ hj]
  obtain ⟨t, hsj⟩ : ∃ t, IsSGV c (famOf (p ++ [j])) t := ⟨_, isSGV_root h hlj (by simp)⟩
  have hle := (hmax k j _ hk hsj).1
  rw [hmu] at hle
  have hle' := le_of_mul_le_mul_left (le_of_add_le_add_left hle) ha
  have hpow := pow_le_pow_left₀ hsj.1 hle' (p.length + 1)
  have e1 : s ^ (p.length + 1) = covDet c (p ++ [i']) := by
    rw [covDet_eq, ← hs.2, Fintype.card_fin, List.length_append, List.length_singleton]
  have e2 : t ^ (p.length + 1) = covDet c (p ++ [j]) := by
    rw [covDet_eq, ← hsj.2, Fintype.card_fin, List.length_append, List.length_singleton]
  rw [e1, e2, covDet_snoc_schur c p i' hd, covDet_snoc_schur c p j hd] at hpow
  exact le_of_mul_le_mul_left hpow (lt_of_le_of_ne (covDet_nonneg h hp) (Ne.symm hd))

/-- **C77 (size of the bonus).** The standardised generalised variance lies between zero and the mean of
the variances of the points involved. -/
theorem C77_bonus {N : Nat} {c : Nat → Nat → ℝ} (h : IsCov N c) {p : List Nat} (hp : ∀ i ∈ p, i < N) {i : Nat}
    (hi : i < N) {s : ℝ} (hs : IsSGV c (famOf (p ++ [i])) s) :
    0 ≤ s ∧ s ≤ ((p.map fun j => c j j).sum + c i i) / (p.length + 1) := by
  haveI : Nonempty (Fin (p ++ [i]).length) := ⟨⟨0, by simp⟩⟩
  have hl : ∀ j ∈ p ++ [i], j < N := by
    intro j hj; simp at hj; rcases hj with hj | rfl; exacts [hp j hj, hi]
  refine ⟨hs.1, (isSGV_le_mean hs (famCov_posSemidef h _ (famOf_lt hl))).trans_eq ?_⟩
  have hsum : (∑ a, c (famOf (p ++ [i]) a) (famOf (p ++ [i]) a)) = ((p ++ [i]).map fun j => c j j).sum := by
    rw [← List.sum_ofFn]
    congr 1
    conv_rhs => rw [← List.ofFn_getElem (xs := p ++ [i]), List.map_ofFn]
    rfl
  rw [hsum]; simp

/-- The covariance used for a linear model is a bilinear form in the candidate points. -/
theorem linear_cov_eq (pts : Nat → Fin d → ℝ) (w : Fin 200 → Fin d → ℝ) (i j : Nat) :
    npCov (fun s => gvAllW pts w s i) (fun s => gvAllW pts w s j) =
      ∑ k, ∑ l, pts i k * pts j l * npCov (fun s => w s k) (fun s => w s l) := by
  have hc : ∀ (i : Nat) (s : Fin 200), gvAllW pts w s i - (∑ t, gvAllW pts w t i) / ((200 : Nat) : ℝ) =
      ∑ k, pts i k * (w s k - (∑ t, w t k) / ((200 : Nat) : ℝ)) := by
    intro i s
    simp only [gvAllW, mul_sub, Finset.sum_sub_distrib]
    congr 1
    rw [Finset.sum_comm, Finset.sum_div]
    exact Finset.sum_congr rfl fun k _ => by rw [← Finset.mul_sum]; ring
  simp only [npCov, hc]
  simp only [Finset.sum_mul_sum]
  rw [Finset.sum_comm, Finset.sum_div]
  refine Finset.sum_congr rfl fun k _ => ?_
  rw [Finset.sum_comm, Finset.sum_div]
  refine Finset.sum_congr rfl fun l _ => ?_
  rw [← mul_div_assoc, Finset.mul_sum]
  congr 1
  exact Finset.sum_congr rfl fun s _ => by ring

/-- **C77 (linear model).** For two or more candidates the covariance used is the sample covariance of the
utilities under the 200 sampled weight vectors; it is a covariance function, so `C77_greedy` applies. -/
theorem C77_linear_cov {N : Nat} (hN : N ≠ 1) (pts : Nat → Fin d → ℝ) (w : Fin 200 → Fin d → ℝ) :
    ∃ c, (GVModel.linear pts w).cov N = .ok c ∧ IsCov N c ∧
      ∀ (u : Nat → Fin 200 → ℝ) (m : Nat → ℝ), (∀ i s, u i s = pts i ⬝ᵥ w s) → (∀ i, 200 * m i = ∑ s, u i s) →
        ∀ i j, 199 * c i j = ∑ s, (u i s - m i) * (u j s - m j) := by
  refine ⟨_, by rw [GVModel.cov, if_neg hN], ⟨fun a _ b _ => ?_, fun v => ?_⟩, fun u m hu hm i j => ?_⟩
  · simp only [npCov]; congr 1; exact Finset.sum_congr rfl fun s _ => mul_comm _ _
  · have : (∑ a, ∑ b, v a * v b * npCov (fun s => gvAllW pts w s a) (fun s => gvAllW pts w s b)) =
        (∑ s : Fin 200, (∑ a : Fin N, v a * (gvAllW pts w s a - (∑ t, gvAllW pts w t a) / ((200 : Nat) : ℝ))) ^ 2) /
          (((200 : Nat) : ℝ) - 1) := by
      simp only [npCov, ← mul_div_assoc, Finset.mul_sum, ← Finset.sum_div]
      simp only [sq, Finset.sum_mul_sum]
      congr 1
      conv_rhs => rw [Finset.sum_comm]
      refine Finset.sum_congr rfl fun a _ => ?_
      conv_rhs => rw [Finset.sum_comm]
      exact Finset.sum_congr rfl fun b _ => Finset.sum_congr rfl fun s _ => by ring
    rw [this]
    exact div_nonneg (Finset.sum_nonneg fun s _ => sq_nonneg _) (by norm_num)
  · have hu' : ∀ i s, gvAllW pts w s i = u i s := fun i s => (hu i s).symm
    have hm' : ∀ i, (∑ s, u i s) / ((200 : Nat) : ℝ) = m i := fun i => by rw [← hm i]; norm_num
    simp only [npCov, hu', hm']
    norm_num
    ring

/-- **C77 (linear model, exploration stops).** In `d` dimensions, once `d` points have been selected the
bonus of every candidate is zero: the values are the means alone, whatever the weight. -/
theorem C77_linear_rank {N : Nat} (hN : N ≠ 1) (pts : Nat → Fin d → ℝ) (w : Fin 200 → Fin d → ℝ)
    (mu : Nat → ℝ) (alpha : ℝ) {p : List Nat} (hp : d ≤ p.length) {i : Nat} :
    ∃ c, (GVModel.linear pts w).cov N = .ok c ∧ gvValue c mu alpha p i = some (mu i) := by
  refine ⟨_, by rw [GVModel.cov, if_neg hN], ?_⟩
  set c : Nat → Nat → ℝ := fun i j => npCov (fun s => gvAllW pts w s i) (fun s => gvAllW pts w s j) with hc
  set e := famOf (p ++ [i])
  have h0 : covDet c (p ++ [i]) = 0 := by
    rw [covDet_eq]
    let P : Matrix (Fin d) (Fin (p ++ [i]).length) ℝ := Matrix.of fun k a => pts (e a) k
    have hker : P.mulVecLin.ker ≠ ⊥ := LinearMap.ker_ne_bot_of_finrank_lt (by simp; omega)
    obtain ⟨v, hv, hv0⟩ := (Submodule.ne_bot_iff _).mp hker
    refine Matrix.exists_mulVec_eq_zero_iff.mp ⟨v, hv0, ?_⟩
    have hv' : ∀ k, ∑ a, pts (e a) k * v a = 0 := fun k => congrFun (LinearMap.mem_ker.mp hv) k
    funext a
    simp only [mulVec, dotProduct, famCov, of_apply, hc, linear_cov_eq, Pi.zero_apply, Finset.sum_mul]
    rw [Finset.sum_comm]
    refine Finset.sum_eq_zero fun k _ => ?_
    rw [Finset.sum_comm]
    refine Finset.sum_eq_zero fun l _ => ?_
    have := hv' l
    calc _ = pts (e a) k * npCov (fun s => w s k) (fun s => w s l) * ∑ x, pts (e x) l * v x := by
            rw [Finset.mul_sum]; exact Finset.sum_congr rfl fun x _ => by ring
      _ = 0 := by rw [this, mul_zero]
  rw [gvValue, h0, npRoot_nonneg le_rfl]
  have : ((p.length : ℝ) + 1)⁻¹ ≠ 0 := by positivity
  simp [Real.zero_rpow this]

theorem isCov_of_psd {n : Nat} {c : Nat → Nat → ℝ} {M : Matrix (Fin n) (Fin n) ℝ} (hM : M.PosSemidef)
    (hc : ∀ a b : Fin n, c a b = M a b) : IsCov n c := by
  refine ⟨fun a ha b hb => ?_, fun w => ?_⟩
  · have h1 := hc ⟨a, ha⟩ ⟨b, hb⟩
    have h2 := hc ⟨b, hb⟩ ⟨a, ha⟩
    simp only at h1 h2
    rw [h1, h2]
    simpa using (congrFun (congrFun hM.1 ⟨a, ha⟩) ⟨b, hb⟩).symm
  · have := hM.dotProduct_mulVec_nonneg w
    simp only [star_trivial, dotProduct, mulVec, Finset.mul_sum] at this
    refine this.trans_eq (Finset.sum_congr rfl fun a _ => Finset.sum_congr rfl fun b _ => ?_)
    rw [hc]; ring

/-- **C77 (Gaussian processes).** The covariance a `GP` or a `PreferenceGP` stores when it predicts the
candidates is a covariance function, so `C77_greedy` applies after every such prediction. -/
theorem C77_gp_cov {n t : Nat} (k : KExpr ℝ (Pt d)) (hok : AllLeaves (LeafOK (d = 1)) k)
    (hq : AllLeaves QuietIfZeroed k) (X : Fin n → Pt d) (hn : 0 < n) {p : GPPred n} {c : Nat → Nat → ℝ}
    (hc : ∀ a b : Fin n, c a b = p.cov a b) :
    (∀ (mean : Pt d → ℝ) (rows : List (Pt d × ℝ × ℝ)), (∀ r ∈ rows, 0 ≤ r.2.2) →
      gpRegress (kcov k) mean (some rows) X = .ok p → IsCov n c) ∧
    (∀ (Y : Fin t → Pt d) (K W : Matrix (Fin t) (Fin t) ℝ) (F : Fin t → ℝ)
      (invert : Matrix (Fin t) (Fin t) ℝ → Option (Matrix (Fin t) (Fin t) ℝ)), 0 < t →
      k.cov Y Y = .ok K → W.PosSemidef → InvertsInvertible invert →
      prefGpPredict (kcov k) Y K W F invert X = .ok p → IsCov n c) := by
  refine ⟨fun mean rows hs h => ?_, fun Y K W F invert ht hKY hW hinv h => ?_⟩
  · obtain ⟨_, -, hp, -⟩ := C43_posterior k hok hq mean rows hs X hn h
    exact isCov_of_psd hp hc
  · obtain ⟨_, -, hp, -⟩ := C73_posterior k hok hq Y ht X hn hKY hW F hinv h
    exact isCov_of_psd hp hc

/-- **C77 (failures).** An empty set of candidates is rejected; so is any use with a model that is neither a
Gaussian process nor a `PreferenceLinear`, a `PreferenceLinear` with a single candidate, and an index out of
range among the candidates or the previous selections. -/
theorem C77_errors (N : Nat) (mu : Nat → ℝ) (alpha : ℝ) (ind prev : List Nat) :
    gvGreedy N (.other (d := d)) mu alpha ind prev = .error .unboundLocal ∧
    (∀ pts w, gvGreedy 1 (.linear (d := d) pts w) mu alpha ind prev = .error .valueError) ∧
    (∀ c, gvGreedy N (.gp (d := d) c) mu alpha [] prev = .error .valueError) ∧
    (∀ (m : GVModel d) c, m.cov N = .ok c → ind ≠ [] → (∃ i ∈ ind ++ prev, N ≤ i) →
      gvGreedy N m mu alpha ind prev = .error .indexError) := by
  refine ⟨rfl, fun _ _ => rfl, fun c => ?_, fun m c hm hne ⟨i, hi, hN⟩ => ?_⟩
  · simp [gvGreedy, GVModel.cov, npArgmaxNan, npArgmax, bind, Except.bind]
  · rw [gvGreedy, hm]
    simp only [bind, Except.bind]
    rw [if_pos]
    rcases List.mem_append.mp hi with h | h
    exacts [Or.inr ⟨i, h, hN⟩, Or.inl ⟨hne, i, h, hN⟩]

/-- **C77 (numerical failure).** If rounding makes the determinant for some candidate negative (`bad`), the
answer is the first such candidate, whatever the means, and the reported value is `nan`. -/
theorem C77_nan {N : Nat} (c : Nat → Nat → ℝ) (mu : Nat → ℝ) (alpha : ℝ) {pre post prev : List Nat} {bad : Nat}
    (hi : ∀ i ∈ pre ++ bad :: post, i < N) (hp : ∀ i ∈ prev, i < N) (hprev : prev ≠ [])
    (hbad : covDet c (prev ++ [bad]) < 0) (hpre : ∀ i ∈ pre, 0 ≤ covDet c (prev ++ [i])) :
    gvGreedy N (.gp (d := d) c) mu alpha (pre ++ bad :: post) prev = .ok (bad, none) := by
  have hv : gvValue c mu alpha prev bad = none := by
    rw [gvValue, npRoot, if_pos]; · rfl
    exact ⟨hbad, by simpa using hprev⟩
  have hidx : ((pre ++ bad :: post).map (gvValue c mu alpha prev)).findIdx? Option.isNone = some pre.length := by
    rw [List.map_append, List.findIdx?_append]
    have : (pre.map (gvValue c mu alpha prev)).findIdx? Option.isNone = none := by
      rw [List.findIdx?_eq_none_iff]
      intro x hx
      obtain ⟨i, hi', rfl⟩ := List.mem_map.mp hx
      rw [gvValue, npRoot_nonneg (hpre i hi')]; rfl
    rw [this]; simp [hv, List.findIdx?_cons]
  rw [gvGreedy]
  simp only [GVModel.cov, bind, Except.bind]
  rw [if_neg (by push Not; exact ⟨fun _ => hp, hi⟩)]
  simp only [npArgmaxNan, hidx]
  simp [hv]; rfl

/-- A covariance function for the examples: independent candidates, variances 1, 2, 3, … -/
def diagCov (a b : Nat) : ℝ := if a = b then a + 1 else 0

theorem diagCov_isCov (N : Nat) : IsCov N diagCov := by
  refine ⟨fun a _ b _ => ?_, fun w => ?_⟩
  · by_cases h : a = b
    · rw [h]
    · simp [diagCov, h, Ne.symm h]
  · refine Finset.sum_nonneg fun a _ => Finset.sum_nonneg fun b _ => ?_
    by_cases h : a = b
    · subst h; simp only [diagCov, if_true]; nlinarith [mul_self_nonneg (w a), (Nat.cast_nonneg (a : Nat) : (0 : ℝ) ≤ _)]
    · simp [diagCov, Fin.val_inj, h]

example : ∃ b i s, [1, 2][b]? = some i ∧
    gvGreedy 3 (.gp (d := 0) diagCov) (fun _ => 0) 1 [1, 2] [0] = .ok (i, some (0 + 1 * s)) ∧
    IsSGV diagCov (famOf ([0] ++ [i])) s ∧
      ∀ (k j : Nat) t, [1, 2][k]? = some j → IsSGV diagCov (famOf ([0] ++ [j])) t →
        0 + 1 * t ≤ 0 + 1 * s ∧ (k < b → 0 + 1 * t < 0 + 1 * s) :=
  C77_greedy (d := 0) (N := 3) (.gp diagCov) rfl (diagCov_isCov 3) (fun _ => 0) 1 (by simp) (by simp) (by simp)

example : (famCov diagCov (famOf [0])).det ≠ 0 := by simp [famCov, famOf, diagCov]

example : covDet (fun a b => if a = b then 1 else 2) ([0] ++ [1]) < 0 := by
  rw [show covDet (fun a b => if a = b then (1 : ℝ) else 2) ([0] ++ [1]) =
    (Matrix.of fun a b : Fin 2 => if ([0, 1] : List Nat)[a] = [0, 1][b] then (1 : ℝ) else 2).det from rfl,
    Matrix.det_fin_two]
  simp; norm_num

end Lop.Props
