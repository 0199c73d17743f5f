import Verif.Props.Laplace
import Verif.Proofs.LinearBest

/-! # C128: when a linear utility has best weights -/

namespace Lop.Props

open Lop.Spec Lop Matrix Filter Topology

variable {n d : Nat}

/-- C128: the answers have best weights exactly if every linear utility that contradicts no answer is indifferent about
every question. -/
theorem C128_exists {sigma : ℝ} (hs : 0 < sigma) (X : Matrix (Fin n) (Fin d) ℝ) (y : List (IPair n)) :
    (∃ w, IsBestWeights sigma y X w) ↔ ∀ u, WeightsAgree X y u → WeightsIndifferent X y u := by
  refine ⟨?_, exists_best hs⟩
  rintro ⟨w, hw⟩ u hu
  exact (pairLogLik_agrees hs y hu w).2 (hw _)

/-- C128: the answers have exactly one vector of best weights exactly if every linear utility other than 0 contradicts
some answer. -/
theorem C128_unique {sigma : ℝ} (hs : 0 < sigma) (X : Matrix (Fin n) (Fin d) ℝ) (y : List (IPair n)) :
    (∃! w, IsBestWeights sigma y X w) ↔ ∀ u, WeightsAgree X y u → u = 0 := by
  constructor
  · rintro ⟨w, hw, huniq⟩ u hu
    have h1 : IsBestWeights sigma y X (w + u) := fun w' => (hw w').trans (pairLogLik_agrees hs y hu w).1
    have := huniq _ h1
    simpa using this
  · intro h
    obtain ⟨w, hw⟩ := exists_best (sigma := sigma) hs (X := X) (y := y) fun u hu => by
      rw [h u hu]
      intro p _
      simp
    refine ⟨w, hw, fun w' hw' => ?_⟩
    have h1 := best_unique hs hw' hw
    exact sub_eq_zero.1 (h _ fun p hp => (h1 p hp).ge)

/-- C128: if every question was answered both ways, best weights exist; if the questions moreover determine the
weights, there is only one such vector. -/
theorem C128_both_ways {sigma : ℝ} (hs : 0 < sigma) (X : Matrix (Fin n) (Fin d) ℝ) (y : List (IPair n))
    (hb : ∀ p ∈ y, (⟨-p.dk, p.u, p.v⟩ : IPair n) ∈ y ∨ (⟨p.dk, p.v, p.u⟩ : IPair n) ∈ y) :
    (∃ w, IsBestWeights sigma y X w) ∧ (¬ Undetermined X y → ∃! w, IsBestWeights sigma y X w) := by
  have hi : ∀ u, WeightsAgree X y u → WeightsIndifferent X y u := by
    intro u hu p hp
    have h1 := hu p hp
    rcases hb p hp with h | h
    · have h2 := hu _ h
      simp only [Int.cast_neg] at h2
      linarith
    · have h2 := hu _ h
      simp only at h2
      linarith
  refine ⟨exists_best hs hi, fun hd => (C128_unique hs X y).2 fun u hu => ?_⟩
  by_contra hne
  refine hd ⟨u, hne, fun p hp hdk => ?_⟩
  have := hi u hu p hp
  have hdk' : (p.dk : ℝ) ≠ 0 := by exact_mod_cast hdk
  have := (mul_eq_zero.1 this).resolve_left hdk'
  linarith

/-- C128 for a user who always prefers what a linear utility rates strictly higher: there are no best weights. Along the
user's own weights the likelihood grows with the scale, towards certainty. -/
theorem C128_perfect_user {sigma : ℝ} (hs : 0 < sigma) (X : Matrix (Fin n) (Fin d) ℝ) {y : List (IPair n)}
    (hy : y ≠ []) {u : Fin d → ℝ} (hu : ∀ p ∈ y, 0 < (p.dk : ℝ) * ((X *ᵥ u) p.v - (X *ᵥ u) p.u)) :
    (¬ ∃ w, IsBestWeights sigma y X w) ∧
      StrictMono (fun c : ℝ => pairLogLik sigma y (X *ᵥ (c • u))) ∧
      Tendsto (fun c : ℝ => pairLogLik sigma y (X *ᵥ (c • u))) atTop (𝓝 0) := by
  obtain ⟨p0, hp0⟩ := List.exists_mem_of_ne_nil y hy
  have h2 : 0 < Real.sqrt 2 * sigma := by positivity
  refine ⟨fun h => ?_, fun a b hab => ?_, ?_⟩
  · have := (C128_exists hs X y).1 h u (fun p hp => (hu p hp).le) p0 hp0
    exact absurd this (hu p0 hp0).ne'
  · have hag : WeightsAgree X y ((b - a) • u) := by
      intro p hp
      have := mul_pos (sub_pos.2 hab) (hu p hp)
      simp only [mulVec_smul, Pi.smul_apply, smul_eq_mul]
      linarith
    obtain ⟨h3, h4⟩ := pairLogLik_agrees hs y hag (a • u)
    have e : a • u + (b - a) • u = b • u := by module
    rw [e] at h3 h4
    refine lt_of_le_of_ne h3 fun he => ?_
    have := h4 he.ge p0 hp0
    have h5 := mul_pos (sub_pos.2 hab) (hu p0 hp0)
    simp only [mulVec_smul, Pi.smul_apply, smul_eq_mul] at this
    linarith
  · have hterm : ∀ p ∈ y, Tendsto (fun c : ℝ => Real.log (Phi (pairZ sigma (X *ᵥ (c • u)) p))) atTop (𝓝 0) := by
      intro p hp
      have hz : ∀ c : ℝ, pairZ sigma (X *ᵥ (c • u)) p =
          c * ((p.dk : ℝ) * ((X *ᵥ u) p.v - (X *ᵥ u) p.u) / (Real.sqrt 2 * sigma)) := by
        intro c
        simp only [pairZ, mulVec_smul, Pi.smul_apply, smul_eq_mul]
        ring
      have ht : Tendsto (fun c : ℝ => pairZ sigma (X *ᵥ (c • u)) p) atTop atTop := by
        simp only [hz]
        exact tendsto_id.atTop_mul_const (div_pos (hu p hp) h2)
      have hP : Tendsto Phi atTop (𝓝 1) := tendsto_Phi_atTop
      have := (hP.comp ht).log (by norm_num)
      simpa using this
    have hsum : ∀ l : List (IPair n), (∀ p ∈ l, p ∈ y) →
        Tendsto (fun c : ℝ => (l.map fun p => Real.log (Phi (pairZ sigma (X *ᵥ (c • u)) p))).sum) atTop (𝓝 0) := by
      intro l hl
      induction l with
      | nil => simp
      | cons p l ih =>
        simp only [List.map_cons, List.sum_cons]
        have := (hterm p (hl p List.mem_cons_self)).add (ih fun q hq => hl q (List.mem_cons_of_mem _ hq))
        simpa using this
    exact hsum y fun p hp => hp

/-- A point without gradient is a maximiser of the likelihood, and conversely. -/
private lemma best_iff_gradient (sigma : ℝ) (y : List (IPair n)) (X : Matrix (Fin n) (Fin d) ℝ) (w : Fin d → ℝ)
    {g : Fin d → ℝ} (hg : IsGradientAt (fun w => pairLogLik sigma y (X *ᵥ w)) g w) :
    IsBestWeights sigma y X w ↔ g = 0 := by
  constructor
  · intro h
    have hmax : IsLocalMax (fun w => pairLogLik sigma y (X *ᵥ w)) w := Filter.Eventually.of_forall fun w' => h w'
    have h0 := hmax.hasFDerivAt_eq_zero hg
    funext i
    have := congrArg (fun L => L (Pi.single i 1)) h0
    simpa [dotProduct, Pi.single_apply] using this
  · intro h w'
    have hconc : ConcaveOn ℝ Set.univ fun w => pairLogLik sigma y (X *ᵥ w) := by
      have := (C37_concave sigma y).comp_linearMap X.mulVecLin
      simpa [Function.comp_def] using this
    have := concave_tangent hconc hg w'
    rw [h, zero_dotProduct, add_zero] at this
    exact this

/-- C128: an update of `PreferenceLinear.optimize` leaves the weights as they are exactly if they are best (nothing
clipped); this holds whether or not the comparisons determine the weights. -/
theorem C128_settled (P : ProbitSet) (hs : 0 < P.sigma) (y : List (IPair n)) (X : Matrix (Fin n) (Fin d) ℝ)
    (w : Fin d → ℝ) (h : PairsInRange P.sigma y (X *ᵥ w)) :
    linUpdate P ⟨some y, none, none⟩ X npInv w = .ok (some w) ↔ IsBestWeights P.sigma y X w := by
  have hg := (C37_derivatives P.sigma y (X *ᵥ w) h).2.1.comp_mulVec X w
  rw [best_iff_gradient P.sigma y X w hg]
  by_cases hu : Undetermined X y
  · obtain ⟨lam, hl, e⟩ := linUpdate_undetermined P y X w hu
    rw [e]
    simp only [Except.ok.injEq, Option.some.injEq, sub_eq_self, smul_eq_zero, hl.ne', false_or]
    rfl
  · constructor
    · intro e
      obtain ⟨w', g, e', hg', h1, h2⟩ := C68_uphill_partial P hs.ne' y X w h hu
      rw [e] at e'
      simp only [Except.ok.injEq, Option.some.injEq] at e'
      subst e'
      have hgg : g = 0 := by
        by_contra hc
        have := h2 hc
        simp at this
      exact (best_iff_gradient P.sigma y X w hg).1 ((best_iff_gradient P.sigma y X w hg').2 hgg)
    · intro h0
      have h0' : prefDerv P.sigma y (X *ᵥ w) ᵥ* X = 0 := h0
      simp only [linUpdate, linDerivatives_pairs, Bind.bind, Except.bind, newtonUpdate, descentDir, h0', pure, Except.pure]
      cases npInv (-(Xᵀ * prefW P.sigma y (X *ᵥ w) * X)) <;> simp

/-- C128: `PreferenceLinear.optimize` started at best weights returns them (nothing clipped there). -/
theorem C128_fit (P : ProbitSet) (hs : 0 < P.sigma) (y : List (IPair n)) (X : Matrix (Fin n) (Fin d) ℝ)
    (w : Fin d → ℝ) (h : PairsInRange P.sigma y (X *ᵥ w)) (hw : IsBestWeights P.sigma y X w) :
    linFit P ⟨some y, none, none⟩ X w = .ok (some w) := by
  have e := (C128_settled P hs y X w h).2 hw
  have hst : linStep P ⟨some y, none, none⟩ X (some w) = .ok (some w, false) := by
    simp [linStep, e, Except.map]
    norm_num
  simp [linFit, linearLoop, hst, Except.map]

/-- C128 for a perfect user: every update moves the weights, so `optimize` can only end because a step was small or the
loop limit was reached, never because there was nothing left to gain. -/
theorem C128_never_settles (P : ProbitSet) (hs : 0 < P.sigma) {y : List (IPair n)} (hy : y ≠ [])
    (X : Matrix (Fin n) (Fin d) ℝ) {u : Fin d → ℝ}
    (hu : ∀ p ∈ y, 0 < (p.dk : ℝ) * ((X *ᵥ u) p.v - (X *ᵥ u) p.u)) (w : Fin d → ℝ)
    (h : PairsInRange P.sigma y (X *ᵥ w)) :
    linUpdate P ⟨some y, none, none⟩ X npInv w ≠ .ok (some w) := fun e =>
  (C128_perfect_user hs X hy hu).1 ⟨w, (C128_settled P hs y X w h).1 e⟩

/-- Three points with two features: two comparisons answered both ways determine the weights. -/
example : (∀ p ∈ ([⟨1, 0, 1⟩, ⟨-1, 0, 1⟩, ⟨1, 0, 2⟩, ⟨1, 2, 0⟩] : List (IPair 3)),
      (⟨-p.dk, p.u, p.v⟩ : IPair 3) ∈ ([⟨1, 0, 1⟩, ⟨-1, 0, 1⟩, ⟨1, 0, 2⟩, ⟨1, 2, 0⟩] : List (IPair 3)) ∨
      (⟨p.dk, p.v, p.u⟩ : IPair 3) ∈ ([⟨1, 0, 1⟩, ⟨-1, 0, 1⟩, ⟨1, 0, 2⟩, ⟨1, 2, 0⟩] : List (IPair 3))) ∧
    ¬ Undetermined (!![0, 0; 1, 0; 0, 1] : Matrix (Fin 3) (Fin 2) ℝ) [⟨1, 0, 1⟩, ⟨-1, 0, 1⟩, ⟨1, 0, 2⟩, ⟨1, 2, 0⟩] := by
  refine ⟨by decide, ?_⟩
  rintro ⟨w, hw, h⟩
  have h1 := h ⟨1, 0, 1⟩ (by simp) (by decide)
  have h2 := h ⟨1, 0, 2⟩ (by simp) (by decide)
  simp [mulVec, dotProduct, Fin.sum_univ_two] at h1 h2
  exact hw (funext fun i => by fin_cases i <;> simp [← h1, ← h2])

/-- A perfect user: the second of two points is better in the only feature and was preferred. -/
example : ∀ p ∈ ([⟨1, 0, 1⟩] : List (IPair 2)),
    0 < (p.dk : ℝ) * (((!![1; 2] : Matrix (Fin 2) (Fin 1) ℝ) *ᵥ fun _ => 1) p.v -
      ((!![1; 2] : Matrix (Fin 2) (Fin 1) ℝ) *ᵥ fun _ => 1) p.u) := by
  intro p hp
  simp only [List.mem_singleton] at hp
  subst hp
  simp [mulVec, dotProduct]

/-- Equal numbers of opposite answers to one question: the weights 0 are best, and nothing is clipped there. -/
example : IsBestWeights 1 [⟨1, 0, 1⟩, ⟨-1, 0, 1⟩] (!![1; 2] : Matrix (Fin 2) (Fin 1) ℝ) 0 ∧
    PairsInRange 1 [⟨1, 0, 1⟩, ⟨-1, 0, 1⟩] ((!![1; 2] : Matrix (Fin 2) (Fin 1) ℝ) *ᵥ 0) := by
  constructor
  · intro w'
    have hz : pairZ 1 ((!![1; 2] : Matrix (Fin 2) (Fin 1) ℝ) *ᵥ w') ⟨-1, 0, 1⟩ =
        -pairZ 1 ((!![1; 2] : Matrix (Fin 2) (Fin 1) ℝ) *ᵥ w') ⟨1, 0, 1⟩ := by
      simp only [pairZ]
      push_cast
      ring
    simp only [pairLogLik, List.map_cons, List.map_nil, List.sum_cons, List.sum_nil, hz]
    generalize pairZ 1 ((!![1; 2] : Matrix (Fin 2) (Fin 1) ℝ) *ᵥ w') ⟨1, 0, 1⟩ = z
    have h1 := logPhi_upper 0 z
    have h2 := logPhi_upper 0 (-z)
    simp only [zero_add] at h1 h2
    simp only [mulVec_zero, pairZ, Pi.zero_apply, sub_self, mul_zero, zero_div]
    linarith
  · intro p hp
    simp [pairZ]
end Lop.Props
