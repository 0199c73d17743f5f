import Verif.Spec.LinearBest
import Verif.Proofs.ModeRate
import Mathlib.Analysis.Normed.Module.FiniteDimension
import Mathlib.Topology.Order.Lattice
import Mathlib.Probability.CDF

/-! # Helper lemmas: best weights of a linear utility -/

namespace Lop

open Matrix Spec

variable {n d : Nat}

theorem strictConcave_logPhi : StrictConcaveOn ℝ Set.univ (fun x => Real.log (Phi x)) := by
  have hd : deriv (fun x => Real.log (Phi x)) = mratio := funext fun x => (hasDerivAt_logPhi x).deriv
  refine StrictAnti.strictConcaveOn_univ_of_deriv
    (continuous_iff_continuousAt.2 fun x => (hasDerivAt_logPhi x).continuousAt) ?_
  rw [hd]
  refine strictAnti_of_deriv_neg fun x => ?_
  rw [(hasDerivAt_mratio x).deriv]
  linarith [mcurv_pos x]

theorem tendsto_Phi_atTop : Filter.Tendsto Phi Filter.atTop (nhds 1) := by
  have h := ProbabilityTheory.tendsto_cdf_atTop (ProbabilityTheory.gaussianReal 0 1)
  refine h.congr fun x => ?_
  rw [ProbabilityTheory.cdf_eq_real]
  rfl

theorem logPhi_lt {a b : ℝ} (h : a < b) : Real.log (Phi a) < Real.log (Phi b) :=
  Real.log_lt_log (Phi_pos _) (Phi_strictMono h)

theorem logPhi_le {a b : ℝ} (h : a ≤ b) : Real.log (Phi a) ≤ Real.log (Phi b) :=
  Real.log_le_log (Phi_pos _) (Phi_strictMono.monotone h)

theorem pairZ_mulVec_add (sigma : ℝ) (X : Matrix (Fin n) (Fin d) ℝ) (w u : Fin d → ℝ) (p : IPair n) :
    pairZ sigma (X *ᵥ (w + u)) p =
      pairZ sigma (X *ᵥ w) p + (p.dk : ℝ) * ((X *ᵥ u) p.v - (X *ᵥ u) p.u) / (Real.sqrt 2 * sigma) := by
  simp only [pairZ, mulVec_add, Pi.add_apply]
  ring

/-- Moving along a direction that agrees with the answers does not lower the likelihood, and raises it unless the
direction is indifferent. -/
theorem pairLogLik_agrees {sigma : ℝ} (hs : 0 < sigma) {X : Matrix (Fin n) (Fin d) ℝ} (y : List (IPair n))
    {u : Fin d → ℝ} (hu : WeightsAgree X y u) (w : Fin d → ℝ) :
    pairLogLik sigma y (X *ᵥ w) ≤ pairLogLik sigma y (X *ᵥ (w + u)) ∧
      (pairLogLik sigma y (X *ᵥ (w + u)) ≤ pairLogLik sigma y (X *ᵥ w) → WeightsIndifferent X y u) := by
  have h2 : 0 < Real.sqrt 2 * sigma := by positivity
  induction y with
  | nil => exact ⟨le_rfl, fun _ p hp => by simp at hp⟩
  | cons p y ih =>
    obtain ⟨i1, i2⟩ := ih fun q hq => hu q (List.mem_cons_of_mem _ hq)
    have hp := hu p List.mem_cons_self
    have e := pairZ_mulVec_add sigma X w u p
    simp only [pairLogLik, List.map_cons, List.sum_cons] at i1 i2 ⊢
    have h1 : Real.log (Phi (pairZ sigma (X *ᵥ w) p)) ≤ Real.log (Phi (pairZ sigma (X *ᵥ (w + u)) p)) := by
      refine logPhi_le ?_
      rw [e]
      have := div_nonneg hp h2.le
      linarith
    refine ⟨add_le_add h1 i1, fun h => ?_⟩
    have hq : WeightsIndifferent X y u := i2 (by linarith)
    intro q hq'
    rcases List.mem_cons.1 hq' with rfl | hq'
    · rcases hp.eq_or_lt with h3 | h3
      · exact h3.symm
      · exfalso
        have : Real.log (Phi (pairZ sigma (X *ᵥ w) q)) < Real.log (Phi (pairZ sigma (X *ᵥ (w + u)) q)) := by
          refine logPhi_lt ?_
          rw [e]
          have := div_pos h3 h2
          linarith
        linarith
    · exact hq q hq'

/-- Standardised differences as a linear map of the weights. -/
noncomputable def zMap (sigma : ℝ) (X : Matrix (Fin n) (Fin d) ℝ) (y : List (IPair n)) :
    (Fin d → ℝ) →ₗ[ℝ] (Fin y.length → ℝ) where
  toFun w := fun i => pairZ sigma (X *ᵥ w) y[i]
  map_add' w u := by
    funext i
    simp only [pairZ, mulVec_add, Pi.add_apply]
    ring
  map_smul' c w := by
    funext i
    simp only [pairZ, mulVec_smul, Pi.smul_apply, smul_eq_mul, RingHom.id_apply]
    ring

theorem pairLogLik_zMap (sigma : ℝ) (X : Matrix (Fin n) (Fin d) ℝ) (y : List (IPair n)) (w : Fin d → ℝ) :
    pairLogLik sigma y (X *ᵥ w) = ∑ i, Real.log (Phi (zMap sigma X y w i)) := by
  simp only [pairLogLik, zMap, LinearMap.coe_mk, AddHom.coe_mk]
  rw [← List.sum_ofFn]
  congr 1
  apply List.ext_getElem <;> simp

theorem zMap_eq_zero {sigma : ℝ} (hs : 0 < sigma) {X : Matrix (Fin n) (Fin d) ℝ} {y : List (IPair n)} {u : Fin d → ℝ} :
    zMap sigma X y u = 0 ↔ WeightsIndifferent X y u := by
  have h2 : Real.sqrt 2 * sigma ≠ 0 := by positivity
  constructor
  · intro h p hp
    obtain ⟨i, hi, rfl⟩ := List.mem_iff_getElem.1 hp
    have := congrFun h ⟨i, hi⟩
    simp only [zMap, LinearMap.coe_mk, AddHom.coe_mk, Pi.zero_apply, pairZ, div_eq_zero_iff, h2, or_false] at this
    exact this
  · intro h
    funext i
    have := h y[i] (List.getElem_mem _)
    simp only [zMap, LinearMap.coe_mk, AddHom.coe_mk, Pi.zero_apply, pairZ, this, zero_div]

theorem agrees_of_zMap {sigma : ℝ} (hs : 0 < sigma) {X : Matrix (Fin n) (Fin d) ℝ} {y : List (IPair n)}
    {u : Fin d → ℝ} (h : ∀ i, 0 ≤ zMap sigma X y u i) : WeightsAgree X y u := by
  have h2 : 0 < Real.sqrt 2 * sigma := by positivity
  intro p hp
  obtain ⟨i, hi, rfl⟩ := List.mem_iff_getElem.1 hp
  have := h ⟨i, hi⟩
  simp only [zMap, LinearMap.coe_mk, AddHom.coe_mk, pairZ] at this
  by_contra hc
  push Not at hc
  exact absurd this (not_le.2 (div_neg_of_neg_of_pos hc h2))

/-- If no direction except indifferent ones agrees with all answers, some weights are best. -/
theorem exists_best {sigma : ℝ} (hs : 0 < sigma) {X : Matrix (Fin n) (Fin d) ℝ} {y : List (IPair n)}
    (h : ∀ u, WeightsAgree X y u → WeightsIndifferent X y u) : ∃ w, IsBestWeights sigma y X w := by
  set V := LinearMap.range (zMap sigma X y) with hV
  set f : (Fin y.length → ℝ) → ℝ := fun z => ∑ i, Real.log (Phi (z i)) with hf
  have hVc : IsClosed (V : Set (Fin y.length → ℝ)) := V.closed_of_finiteDimensional
  have hfc : Continuous f := by
    refine continuous_finsetSum _ fun i _ => ?_
    have : Continuous fun x => Real.log (Phi x) :=
      continuous_iff_continuousAt.2 fun x => (hasDerivAt_logPhi x).continuousAt
    exact this.comp (continuous_apply i)
  have hneg : ∀ z ∈ V, z ≠ 0 → ∃ i, z i < 0 := by
    rintro _ ⟨u, rfl⟩ hz
    by_contra hc
    push Not at hc
    exact hz ((zMap_eq_zero hs).2 (h u (agrees_of_zMap hs hc)))
  -- reduction to a bounded set
  obtain ⟨R, hR⟩ : ∃ R : ℝ, ∀ z ∈ V, f 0 ≤ f z → ‖z‖ ≤ R := by
    -- entries of a good vector are bounded from below
    have hr0 : 0 < mratio 0 := mratio_pos 0
    set B := -(f 0 - Real.log (Phi 0)) / mratio 0 with hB
    have hlow : ∀ z, f 0 ≤ f z → ∀ i, -B ≤ z i := by
      intro z hz i
      have h1 : f z ≤ Real.log (Phi (z i)) := by
        simp only [hf]
        rw [← Finset.add_sum_erase _ _ (Finset.mem_univ i)]
        have : ∑ j ∈ Finset.univ.erase i, Real.log (Phi (z j)) ≤ 0 :=
          Finset.sum_nonpos fun j _ => Real.log_nonpos (Phi_pos _).le (Phi_lt_one _).le
        linarith
      have h2 := logPhi_upper 0 (z i)
      rw [zero_add] at h2
      have h3 : f 0 - Real.log (Phi 0) ≤ z i * mratio 0 := by linarith
      rw [hB, neg_div, neg_neg, div_le_iff₀ hr0]
      exact h3
    by_cases hne : (Metric.sphere (0 : Fin y.length → ℝ) 1 ∩ V).Nonempty
    · have hcomp : IsCompact (Metric.sphere (0 : Fin y.length → ℝ) 1 ∩ V) := (isCompact_sphere 0 1).inter_right hVc
      have hpos : 0 < y.length := by
        obtain ⟨z, hz, -⟩ := hne
        by_contra hc
        have : IsEmpty (Fin y.length) := by
          rw [Nat.eq_zero_of_not_pos hc]
          infer_instance
        have : z = 0 := Subsingleton.elim _ _
        simp [this] at hz
      haveI : Nonempty (Fin y.length) := ⟨⟨0, hpos⟩⟩
      have hcont : Continuous fun z : Fin y.length → ℝ => Finset.univ.inf' Finset.univ_nonempty fun i => z i :=
        Continuous.finset_inf'_apply _ fun i _ => continuous_apply i
      obtain ⟨z0, hz0, hmax⟩ := hcomp.exists_isMaxOn hne hcont.continuousOn
      set c := Finset.univ.inf' Finset.univ_nonempty fun i => z0 i with hc
      have hc0 : c < 0 := by
        obtain ⟨i, hi⟩ := hneg z0 hz0.2 (fun h0 => by
          have := hz0.1
          simp [h0] at this)
        exact lt_of_le_of_lt (Finset.inf'_le _ (Finset.mem_univ i)) hi
      refine ⟨B / -c, fun z hz hfz => ?_⟩
      by_cases hz' : z = 0
      · subst hz'
        have := hlow 0 le_rfl ⟨0, hpos⟩
        simp only [Pi.zero_apply] at this
        simp only [norm_zero]
        exact div_nonneg (by linarith) (by linarith)
      · have hn : 0 < ‖z‖ := norm_pos_iff.2 hz'
        have hmem : ‖z‖⁻¹ • z ∈ Metric.sphere (0 : Fin y.length → ℝ) 1 ∩ V := by
          refine ⟨?_, V.smul_mem _ hz⟩
          rw [mem_sphere_zero_iff_norm, norm_smul, norm_inv, norm_norm, inv_mul_cancel₀ hn.ne']
        have h1 := hmax hmem
        simp only [Set.mem_setOf_eq] at h1
        obtain ⟨i, -, hi⟩ := Finset.exists_mem_eq_inf' (Finset.univ_nonempty (α := Fin y.length))
          fun i => (‖z‖⁻¹ • z) i
        rw [hi] at h1
        simp only [Pi.smul_apply, smul_eq_mul] at h1
        have h2 := hlow z hfz i
        rw [le_div_iff₀ (by linarith)]
        have h3 : z i ≤ c * ‖z‖ := by
          rw [inv_mul_eq_div, div_le_iff₀ hn] at h1
          exact h1
        linarith
    · refine ⟨0, fun z hz _ => ?_⟩
      by_contra hc
      push Not at hc
      refine hne ⟨‖z‖⁻¹ • z, ?_, V.smul_mem _ hz⟩
      rw [mem_sphere_zero_iff_norm, norm_smul, norm_inv, norm_norm, inv_mul_cancel₀ hc.ne']
  have hcomp : IsCompact (Metric.closedBall (0 : Fin y.length → ℝ) (max R 0) ∩ V) :=
    (isCompact_closedBall _ _).inter_right hVc
  obtain ⟨z, hz, hmax⟩ := hcomp.exists_isMaxOn ⟨0, by simp, V.zero_mem⟩ hfc.continuousOn
  obtain ⟨w, hw⟩ := hz.2
  refine ⟨w, fun w' => ?_⟩
  rw [pairLogLik_zMap, pairLogLik_zMap]
  change f (zMap sigma X y w') ≤ f (zMap sigma X y w)
  have hz0 : f 0 ≤ f z := hmax ⟨by simp, V.zero_mem⟩
  rw [hw]
  by_cases hc : f 0 ≤ f (zMap sigma X y w')
  · refine hmax ⟨?_, ⟨w', rfl⟩⟩
    rw [mem_closedBall_zero_iff]
    exact (hR _ ⟨w', rfl⟩ hc).trans (le_max_left _ _)
  · linarith [not_le.1 hc]

/-- Two best weight vectors differ by an indifferent direction. -/
theorem best_unique {sigma : ℝ} (hs : 0 < sigma) {X : Matrix (Fin n) (Fin d) ℝ} {y : List (IPair n)} {w w' : Fin d → ℝ}
    (h : IsBestWeights sigma y X w) (h' : IsBestWeights sigma y X w') : WeightsIndifferent X y (w - w') := by
  rw [← zMap_eq_zero hs, map_sub, sub_eq_zero]
  by_contra hne
  have hmid := h ((1 / 2 : ℝ) • w + (1 / 2 : ℝ) • w')
  have heq : pairLogLik sigma y (X *ᵥ w) = pairLogLik sigma y (X *ᵥ w') := le_antisymm (h' w) (h w')
  rw [pairLogLik_zMap, pairLogLik_zMap] at heq
  rw [pairLogLik_zMap, pairLogLik_zMap] at hmid
  simp only [map_add, map_smul, Pi.add_apply, Pi.smul_apply] at hmid
  obtain ⟨i, hi⟩ := Function.ne_iff.1 hne
  have hlt : ∑ i, ((1 / 2 : ℝ) * Real.log (Phi (zMap sigma X y w i)) + (1 / 2) * Real.log (Phi (zMap sigma X y w' i))) <
      ∑ i, Real.log (Phi ((1 / 2 : ℝ) • zMap sigma X y w i + (1 / 2 : ℝ) • zMap sigma X y w' i)) := by
    refine Finset.sum_lt_sum (fun j _ => ?_) ⟨i, Finset.mem_univ _, ?_⟩
    · exact strictConcave_logPhi.concaveOn.2 (Set.mem_univ _) (Set.mem_univ _) (by norm_num) (by norm_num) (by norm_num)
    · exact strictConcave_logPhi.2 (Set.mem_univ _) (Set.mem_univ _) hi (by norm_num) (by norm_num) (by norm_num)
  rw [Finset.sum_add_distrib, ← Finset.mul_sum, ← Finset.mul_sum] at hlt
  linarith

end Lop
