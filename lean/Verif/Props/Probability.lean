import Verif.Proofs.Probability
import Verif.Props.BestProb

/-! # C95: the probabilities of `ProbabilityLearner` -/

namespace Lop.Props

open Finset MeasureTheory ProbabilityTheory Spec Matrix

variable {n : Nat}

/-- C95 (probability): with an exact distribution function, the number printed for candidate `i` is the probability that
no candidate's value exceeds that of `i`, the values being Gaussian with the mean and covariance of the model. -/
theorem C95_probability {mvcdf : (Fin n → ℝ) → Matrix (Fin n) (Fin n) ℝ → (Fin n → ℝ) → ℝ} (hcdf : ExactCdf mvcdf)
    {K : Matrix (Fin (n + 1)) (Fin (n + 1)) ℝ} (hK : K.PosDef) (mu : Fin (n + 1) → ℝ) :
    ∃ p, probabilityGreedy true mvcdf K mu = .ok (p, none) ∧ ∀ i, p i = bestProbability K mu i := by
  refine ⟨probBest mvcdf K mu, rfl, fun i => ?_⟩
  unfold probBest
  rw [hcdf _ _ _ (plKStar_posDef hK i), plMuStar_eq, plKStar_eq hK.posSemidef]
  refine orthant_eq_bestProbability _ hK.posSemidef mu i fun x => ?_
  simp only [plDiffMat_mulVec, sub_nonpos]
  constructor
  · intro h j
    rcases Fin.eq_self_or_eq_succAbove i j with rfl | ⟨k, rfl⟩
    · exact le_rfl
    · exact h k
  · intro h k
    exact h _

/-- C95 (distribution): these probabilities sum to 1. -/
theorem C95_distribution {K : Matrix (Fin (n + 1)) (Fin (n + 1)) ℝ} (hK : K.PosDef) (mu : Fin (n + 1) → ℝ)
    {mvcdf : (Fin n → ℝ) → Matrix (Fin n) (Fin n) ℝ → (Fin n → ℝ) → ℝ} (hcdf : ExactCdf mvcdf) :
    ∃ p, probabilityGreedy true mvcdf K mu = .ok (p, none) ∧ ∑ i, p i = 1 ∧ ∀ i, 0 ≤ p i := by
  obtain ⟨p, hp, hpi⟩ := C95_probability hcdf hK mu
  refine ⟨p, hp, ?_, fun i => by rw [hpi]; exact measureReal_nonneg⟩
  simp only [hpi]
  exact bestProbability_sum n.succ_pos hK mu

/-- C95 (selection), refuted: nothing is selected. `select` raises `KeyError` with a preference GP and
`UnboundLocalError` with any other model whenever a point is to be selected and one is left; the hypothesis on `prefer`
says that a preferred point is left. -/
theorem C95_selection_false (mvcdf : (Fin n → ℝ) → Matrix (Fin n) (Fin n) ℝ → (Fin n → ℝ) → ℝ)
    (K : Matrix (Fin (n + 1)) (Fin (n + 1)) ℝ) (mu : Fin (n + 1) → ℝ) (pairFirst : Bool) (ord : Finset Nat → List Nat)
    (numAlts : Nat) (prefer prev : Finset Nat)
    (hleft : (prefer \ prev).Nonempty ∨ (Finset.range (n + 1) \ prev).Nonempty) :
    learnerSelect (probabilityLearner true mvcdf K mu) false pairFirst none ord (List.ofFn mu) (numAlts + 1) prefer prev =
        .error .keyError ∧
    learnerSelect (probabilityLearner false mvcdf K mu) false pairFirst none ord (List.ofFn mu) (numAlts + 1) prefer
        prev = .error .unboundLocal := by
  have key : ∀ (L : Learner) e, L.pair = none → (∀ t a b, L.greedy t a b = .error e) →
      learnerSelect L false pairFirst none ord (List.ofFn mu) (numAlts + 1) prefer prev = .error e := by
    intro L e hp hg
    simp only [learnerSelect, effAlts, startSelection, Bool.false_eq_true, false_and, if_false, selectLoop,
      List.length_nil, Nat.zero_lt_succ, if_true, hp, hg, List.length_ofFn, ite_self]
    by_cases h : prefer \ prev = ∅
    · have hne : Finset.range (n + 1) \ prev ≠ ∅ := by
        rcases hleft with h' | h'
        · exact absurd h h'.ne_empty
        · exact h'.ne_empty
      simp [h, hne]
    · simp [h]
  exact ⟨key _ _ rfl fun _ _ _ => rfl, key _ _ rfl fun _ _ _ => rfl⟩

/-- C58 (probability): with an exact orthant routine, `p_B_pref_gp` is the probability of being the best under the
joint normal distribution of the values; dividing by the sum changes nothing. -/
theorem C58_gp_probability {N : Nat} (hN : 0 < N) {cdf : ∀ n, (Fin n → ℝ) → Matrix (Fin n) (Fin n) ℝ → ℝ}
    (hcdf : ∀ n m S, S.PosDef → cdf n m S = (multivariateGaussian (WithLp.toLp 2 m) S).real {y | ∀ j, y j ≤ 0}) {K : Matrix (Fin N) (Fin N) ℝ}
    (hK : K.PosDef) (mu : Fin N → ℝ) : pBGp cdf K mu = some (bestProbability K mu) := by
  have hp : ∀ i, cdf _ (muStar mu i) (kStar K i) = bestProbability K mu i := by
    intro i
    obtain ⟨hnd, hmem, hmu⟩ := C58_gp_means mu i
    obtain ⟨hk, -⟩ := C58_gp_cov K hK.posSemidef i
    set A := (diffMat (otherIdx i) i)ᵀ with hA
    have hAx : ∀ (x : Fin N → ℝ) j, (A *ᵥ x) j = x (otherIdx i)[j] - x i := by
      intro x j
      have h := congrFun (C58_gp_means x i).2.2 j
      rw [hA, ← h]
      rfl
    have hk' : kStar K i = A * K * Aᵀ := by rw [hk, hA, transpose_transpose]
    have hpd : (kStar K i).PosDef := by
      rw [hk']
      have := hK.mul_mul_conjTranspose_same (B := A) ?_
      · simpa using this
      · intro x y hxy
        ext j
        have h1 := congrFun hxy (otherIdx i)[j]
        have hne : ¬ (otherIdx i)[j.val] = i := (hmem _).1 (List.getElem_mem _)
        have hinj : ∀ k : Fin (otherIdx i).length, (otherIdx i)[j.val] = (otherIdx i)[k.val] ↔ j = k := by
          intro k
          constructor
          · intro h
            exact Fin.ext ((hnd.getElem_inj_iff).1 h)
          · rintro rfl; rfl
        simpa [hA, diffMat, vecMul, dotProduct, hne, hinj] using h1
    rw [hcdf _ _ _ hpd, hmu, hk']
    refine orthant_eq_bestProbability A hK.posSemidef mu i fun x => ?_
    simp only [hAx, sub_nonpos]
    constructor
    · intro h j
      by_cases hj : j = i
      · rw [hj]
      · obtain ⟨k, hk, rfl⟩ := List.getElem_of_mem ((hmem j).2 hj)
        exact h ⟨k, hk⟩
    · intro h k
      exact h _
  unfold pBGp
  simp only [hp, bestProbability_sum hN hK mu, div_one]
  rw [if_neg one_ne_zero]

/-- The hypotheses can be met: the identity is positive definite, exact distribution functions exist, and a first call
has points left. -/
example : (1 : Matrix (Fin 3) (Fin 3) ℝ).PosDef ∧
    ExactCdf (n := 2) (fun m S x => (multivariateGaussian (WithLp.toLp 2 m) S).real {y | ∀ j, y j ≤ x j}) ∧
    (Finset.range 3 \ (∅ : Finset Nat)).Nonempty :=
  ⟨Matrix.PosDef.one, fun _ _ _ _ => rfl, ⟨0, by decide⟩⟩

end Lop.Props
