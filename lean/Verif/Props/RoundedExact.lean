import Verif.Proofs.Rounded
import Verif.Model.Sampling
import Verif.Model.Training
import Verif.Model.SynthUser
import Verif.Model.Cov
import Verif.Model.OrdProbit
import Verif.Model.AbsProbit
import Verif.Proofs.Normal
import Mathlib.Algebra.BigOperators.Fin

/-! # C98–C101: without rounding the rounded models are the exact ones

Exact arithmetic is one of the arithmetics over which the rounded models are defined. -/

namespace Lop.Props

open Lop Lop.Spec

/-- Arithmetic without rounding. -/
noncomputable def exactArith : FloatArith where
  rnd := id
  mono := monotone_id
  neg _ := rfl
  idem _ := rfl
  nat _ _ := rfl
  err x _ := by simp only [id, sub_self, abs_zero]; positivity
  err_add x y _ _ _ := by simp only [id, sub_self, abs_zero]; positivity

/-- Summation without rounding. -/
noncomputable def exactSum : NpSum exactArith where
  sum := List.sum
  isSum l := by
    induction l with
    | nil => exact .nil
    | cons a l ih =>
      cases l with
      | nil => simpa using FSum.single (A := exactArith) a
      | cons b l =>
        have := FSum.node (A := exactArith) (l := a :: b :: l) (l₁ := [a]) (l₂ := b :: l) (List.Perm.refl _) (by simp) (by simp)
          (.single a) ih
        rw [List.sum_cons]
        exact this

/-- The exponential function. -/
noncomputable def exactExp : NpExp exactArith where
  exp := Real.exp
  mono _ _ h := Real.exp_le_exp.2 h
  zero := Real.exp_zero
  nonneg x := (Real.exp_pos x).le
  repr _ := rfl

/-- The normal distribution function. -/
noncomputable def exactNdtr : NpNdtr where
  ndtr := Phi
  mono := Phi_strictMono.monotone
  nonneg x := (Phi_pos x).le
  le_one x := (Phi_lt_one x).le

private lemma zipWith_fn {d : Nat} (f : ℝ → ℝ → ℝ) (u v : Fin d → ℝ) :
    (List.ofFn u).zipWith f (List.ofFn v) = List.ofFn fun i => f (u i) (v i) := by
  apply List.ext_getElem
  · simp
  · intro i h1 h2
    simp

private lemma max_fn {n : Nat} (r : Fin n → ℝ) (a : ℝ) (as : List ℝ) (h : List.ofFn r = a :: as)
    (hne : (Finset.univ : Finset (Fin n)).Nonempty) : as.foldl max a = Finset.univ.sup' hne r := by
  obtain ⟨h1, h2, h3⟩ := foldl_max_bounds as a
  apply le_antisymm
  · rw [← h, List.mem_ofFn] at h3
    obtain ⟨i, hi⟩ := h3
    rw [← hi]
    exact Finset.le_sup' r (Finset.mem_univ i)
  · refine Finset.sup'_le hne r fun i _ => ?_
    have : r i ∈ a :: as := by rw [← h, List.mem_ofFn]; exact ⟨i, rfl⟩
    rcases List.mem_cons.1 this with hh | hh
    · rw [hh]; exact h1
    · exact h2 _ hh

/-- Without rounding the model of `p_human_choice` with rounding is the exact one. -/
theorem C98_exact {n : Nat} (r : Fin n → ℝ) (p : ℝ) (hb : ∀ i, |r i| ≤ 2 ^ 1022) :
    humanChoiceF exactArith exactSum exactExp (List.ofFn r) p = (pHumanChoice r p).map List.ofFn := by
  unfold pHumanChoice
  by_cases hne : (Finset.univ : Finset (Fin n)).Nonempty
  · rw [dif_pos hne]
    obtain ⟨a, as, h⟩ : ∃ a as, List.ofFn r = a :: as := by
      obtain ⟨i, -⟩ := hne
      rcases hr : List.ofFn r with _ | ⟨a, as⟩
      · have := congrArg List.length hr
        simp at this
        exact absurd i.2 (by omega)
      · exact ⟨a, as, rfl⟩
    have hmax := max_fn r a as h hne
    have hc : choiceExpF exactArith exactExp (List.ofFn r) p =
        .ok (List.ofFn fun i => Real.exp ((r i - Finset.univ.sup' hne r) * p)) := by
      have e : (List.ofFn fun i => Real.exp ((r i - Finset.univ.sup' hne r) * p)) =
          (List.ofFn r).map fun x => Real.exp ((x - Finset.univ.sup' hne r) * p) := by
        rw [List.map_ofFn]
        rfl
      rw [e, h]
      unfold choiceExpF
      simp only
      rw [if_neg, hmax]
      · rfl
      · rintro ⟨x, hx, hlt⟩
        have hxm : ∀ x ∈ a :: as, |x| ≤ 2 ^ 1022 := by
          intro x hx
          rw [← h, List.mem_ofFn] at hx
          obtain ⟨i, rfl⟩ := hx
          exact hb i
        have e1 := hxm x hx
        have e2 := hxm _ (foldl_max_bounds as a).2.2
        have e3 : |x - as.foldl max a| ≤ |x| + |as.foldl max a| := abs_sub _ _
        have e4 : (2 : ℝ) ^ 1023 = 2 ^ 1022 + 2 ^ 1022 := by
          rw [← mul_two, ← pow_succ]
        rw [e4] at hlt
        generalize (2 : ℝ) ^ 1022 = B at *
        linarith
    unfold humanChoiceF
    rw [hc]
    simp only [Except.map, List.map_ofFn, exactSum, List.sum_ofFn]
    rfl
  · rw [dif_neg hne]
    have hn : n = 0 := by
      by_contra h
      exact hne ⟨⟨0, Nat.pos_of_ne_zero h⟩, Finset.mem_univ _⟩
    subst hn
    rfl

/-- Without rounding the covariance functions are the exact ones. -/
theorem C99_exact {d : Nat} (u v : Pt d) (sigma l sigmaB c p : ℝ) :
    rbfF exactArith exactSum exactExp sigma l (List.ofFn u) (List.ofFn v) = rbfEval sigma l u v ∧
    linF exactArith exactSum sigma sigmaB c (List.ofFn u) (List.ofFn v) = linEval sigma sigmaB c u v ∧
    perF exactArith exactSum exactExp Real.sin Real.pi sigma l p (List.ofFn u) (List.ofFn v) = perEval sigma l p u v := by
  refine ⟨?_, ?_, ?_⟩
  · unfold rbfF rbfEval sqDist
    simp only [zipWith_fn, List.map_ofFn, exactSum, List.sum_ofFn, exactArith, exactExp, id, Function.comp]
  · unfold linF linEval
    simp only [zipWith_fn, exactSum, List.sum_ofFn, exactArith, id]
    ring
  · unfold perF perEval perExp l1Dist
    simp only [zipWith_fn, exactSum, List.sum_ofFn, exactArith, exactExp, id]

/-- Without rounding `RBF_kern.cov(X, X)` and the matrix `W` of the pairs are the exact ones. -/
theorem C99_matrices_exact {d n : Nat} (sigma l noise : ℝ) (X : Fin n → Pt d) (hn : 0 < n) (y : List (IPair n))
    (w : IPair n → ℝ) :
    rbfCov sigma l noise X X = .ok (Matrix.of (rbfCovF exactArith exactSum exactExp sigma l noise fun i => List.ofFn (X i))) ∧
    Matrix.of (pairWF exactArith (y.map fun p => ((p.u, p.v), w p))) = addUpPairs y w := by
  constructor
  · unfold rbfCov
    rw [if_neg (by omega)]
    congr 1
    ext i j
    simp only [Matrix.of_apply, rbfCovF]
    rw [(C99_exact (X i) (X j) sigma l 0 0 0).1]
    simp only [noiseTerm, Matrix.of_apply, exactArith, id, Fin.val_inj]
    by_cases hij : i = j
    · rw [if_pos ⟨trivial, ⟨hn, hn, trivial⟩, hij⟩, if_pos hij, one_mul]
    · rw [if_neg fun h => hij h.2.2, if_neg hij, zero_mul]
  · unfold pairWF addUpPairs
    simp only [List.map_map]
    rfl

/-- Without rounding the ratings are the exact ones. -/
theorem C100_exact (x : List ℝ) (eps z k b : ℝ) :
    normalize01F exactArith x eps = normalize01 x eps ∧ sigmoidF exactArith exactExp z k b = sigmoid z k b := by
  constructor
  · cases x <;> rfl
  · rfl

/-- Without rounding the likelihoods and the parameters of the beta distribution are the exact ones. -/
theorem C101_exact {n : Nat} (sigma v eps f : ℝ) (F : Fin n → ℝ) (p : IPair n) (o : OrdHyper ℝ) (b : Nat → ℝ)
    (hb : ∀ y, 0 < y → y < o.n → o.b[y]? = some (.fin (b y))) (y : Nat) (hy : y < o.n) :
    pairLikF exactArith exactNdtr (isqrt2sig sigma) F p = stdNormCdf (zk sigma F p) ∧
    ordLik o y f = .ok (ordLikF exactArith exactNdtr o.n (1 / o.sigma) b y f) ∧
    meanLinkF exactArith exactNdtr (isqrt2sig sigma) eps f = meanLink sigma eps f ∧
    alphaBetaF exactArith exactNdtr (isqrt2sig sigma) v eps f = alphaBeta sigma v eps f := by
  refine ⟨rfl, ?_, rfl, rfl⟩
  have hc : ∀ z, z ≤ o.n → ordCdf o z f = .ok (ordCdfF exactArith exactNdtr o.n (1 / o.sigma) b z f) := by
    intro z hz
    unfold ordCdf ordCdfF
    by_cases h1 : z = o.n
    · rw [if_pos h1, if_pos h1]
    rw [if_neg h1, if_neg h1]
    by_cases h2 : z = 0
    · rw [if_neg (by simpa using h2), if_pos h2]
    rw [if_pos h2, if_neg h2, hb z (by omega) (by omega)]
    simp only [bndZ, bndCdf, stdNormCdf, stdNormCdfF, exactArith, exactNdtr, id, add_zero]
  unfold ordLik
  rw [hc _ (by omega), hc _ (by omega)]
  rfl

example : ∃ (o : OrdHyper ℝ) (b : Nat → ℝ), (∀ y, 0 < y → y < o.n → o.b[y]? = some (.fin (b y))) ∧ 1 < o.n :=
  ⟨⟨1, 2, [.neg, .fin 0, .pos]⟩, fun _ => 0, fun y h1 h2 => by
    obtain rfl : y = 1 := by
      simp at h2
      omega
    rfl, by simp⟩

end Lop.Props
