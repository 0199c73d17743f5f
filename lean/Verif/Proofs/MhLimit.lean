import Verif.Props.Stationary
import Verif.Proofs.Ergodic
import Mathlib.MeasureTheory.Constructions.Pi

/-! # `metropolis_hastings` as a reversible chain -/

namespace Lop

open Lop.Spec Lop.Props MeasureTheory

variable {X Z : Type*} [MeasurableSpace X] [MeasurableSpace Z]

/-- One pass as a function of the state and the draws. -/
noncomputable def mhNext (ll : X → EReal) (prop : X → Z → X) (q : X × Z × ℝ) : X :=
  (mhStep ll (fun _ x => prop x q.2.1) (fun _ => q.2.2) 0 (q.1, ll q.1)).1

theorem acceptProb_meas {ll : X → EReal} (hll : Measurable ll) : Measurable fun q : X × X => acceptProb ll q.1 q.2 := by
  refine measurable_const.min (EReal.measurable_exp.comp ?_)
  have h2 : Measurable fun q : X × X => - ll q.1 := continuous_neg.measurable.comp (hll.comp measurable_fst)
  exact (hll.comp measurable_snd).add h2

theorem acceptProb_eq_zero {ll : X → EReal} (ht : ∀ x, ll x ≠ ⊤) (x y : X) : acceptProb ll x y = 0 ↔ EReal.exp (ll y) = 0 := by
  have h1 : acceptProb ll x y = 0 ↔ EReal.exp (ll y - ll x) = 0 := by
    rw [acceptProb]
    constructor
    · intro h
      rcases min_choice (1 : ENNReal) (EReal.exp (ll y - ll x)) with h' | h'
      · rw [h'] at h; exact absurd h one_ne_zero
      · rw [h'] at h; exact h
    · intro h
      rw [h]; simp
  rw [h1, EReal.exp_eq_zero_iff, EReal.exp_eq_zero_iff, sub_eq_add_neg, EReal.add_eq_bot_iff, EReal.neg_eq_bot_iff]
  simp [ht x]

variable {ρ : Measure Z} [IsProbabilityMeasure ρ] {ll : X → EReal} {prop : X → Z → X}

/-- The mean of a function after one pass from `x`. -/
theorem mhNext_inner (hll : Measurable ll) (hp : Measurable fun q : X × Z => prop q.1 q.2) {f : X → ENNReal} (hf : Measurable f) (x : X) :
    ∫⁻ w : Z × ℝ, f (mhNext ll prop (x, w)) ∂(ρ.prod unitUniform) =
      ∫⁻ z, (acceptProb ll x (prop x z) * f (prop x z) + (1 - acceptProb ll x (prop x z)) * f x) ∂ρ := by
  have hm : Measurable fun w : Z × ℝ => f (mhNext ll prop (x, w)) :=
    (hf.comp (mhStep_meas hll hp)).comp (measurable_const.prodMk measurable_id)
  rw [lintegral_prod _ hm.aemeasurable]
  refine lintegral_congr fun z => ?_
  have hs : MeasurableSet {v : ℝ | ENNReal.ofReal v < EReal.exp (ll (prop x z) - ll x)} :=
    measurableSet_lt ENNReal.measurable_ofReal measurable_const
  rw [← lintegral_add_compl _ hs]
  have e1 : ∫⁻ v in {v : ℝ | ENNReal.ofReal v < EReal.exp (ll (prop x z) - ll x)},
      f (mhNext ll prop (x, z, v)) ∂unitUniform = acceptProb ll x (prop x z) * f (prop x z) := by
    rw [setLIntegral_congr_fun hs (g := fun _ => f (prop x z)), setLIntegral_const, unitUniform_lt, acceptProb, mul_comm]
    intro v hv
    simp only [Set.mem_setOf_eq] at hv
    simp [mhNext, mhStep, hv]
  have e2 : ∫⁻ v in {v : ℝ | ENNReal.ofReal v < EReal.exp (ll (prop x z) - ll x)}ᶜ,
      f (mhNext ll prop (x, z, v)) ∂unitUniform = (1 - acceptProb ll x (prop x z)) * f x := by
    rw [setLIntegral_congr_fun hs.compl (g := fun _ => f x), setLIntegral_const, prob_compl_eq_one_sub hs, unitUniform_lt, acceptProb, mul_comm]
    intro v hv
    simp only [Set.mem_compl_iff, Set.mem_setOf_eq] at hv
    simp [mhNext, mhStep, hv]
  exact congrArg₂ (· + ·) e1 e2

variable {ν : Measure X} [SigmaFinite ν]

/-- Balance also for functions of both states. -/
theorem balance_pairs (hp : Measurable fun q : X × Z => prop q.1 q.2) (hr : ReversibleProposal ν ρ prop) {E : X → ENNReal} {F : X × X → ENNReal}
    {a : X → X → ENNReal} (hE : Measurable E) (hF : Measurable F) (hA : Measurable fun q : X × X => a q.1 q.2)
    (hb : ∀ x y, E x * a x y = E y * a y x) :
    ∫⁻ q, E q.1 * (a q.1 (prop q.1 q.2) * F (prop q.1 q.2, q.1)) ∂(ν.prod ρ) =
      ∫⁻ q, E q.1 * (a q.1 (prop q.1 q.2) * F (q.1, prop q.1 q.2)) ∂(ν.prod ρ) := by
  have hpair : Measurable fun q : X × Z => (q.1, prop q.1 q.2) := measurable_fst.prodMk hp
  have hswap : Measurable fun q : X × Z => (prop q.1 q.2, q.1) := hp.prodMk measurable_fst
  have hG : Measurable fun q : X × X => E q.1 * (a q.1 q.2 * F (q.2, q.1)) :=
    (hE.comp measurable_fst).mul (hA.mul (hF.comp measurable_swap))
  have h1 := lintegral_map hG hpair (μ := ν.prod ρ)
  rw [← hr, lintegral_map hG hswap] at h1
  rw [← h1]
  refine lintegral_congr fun q => ?_
  rw [← mul_assoc, hb, mul_assoc]

theorem split_lintegral (hp : Measurable fun q : X × Z => prop q.1 q.2) {E : X → ENNReal} {G : X × X → ENNReal}
    {a : X → X → ENNReal} (hE : Measurable E) (hG : Measurable G) (hA : Measurable fun q : X × X => a q.1 q.2) :
    ∫⁻ x, (∫⁻ z, (a x (prop x z) * G (x, prop x z) + (1 - a x (prop x z)) * G (x, x)) ∂ρ) ∂(ν.withDensity E) =
    ∫⁻ q, E q.1 * (a q.1 (prop q.1 q.2) * G (q.1, prop q.1 q.2)) ∂(ν.prod ρ) +
    ∫⁻ q, E q.1 * ((1 - a q.1 (prop q.1 q.2)) * G (q.1, q.1)) ∂(ν.prod ρ) := by
  have hpair : Measurable fun q : X × Z => (q.1, prop q.1 q.2) := measurable_fst.prodMk hp
  have hS : Measurable fun q : X × Z => a q.1 (prop q.1 q.2) * G (q.1, prop q.1 q.2) + (1 - a q.1 (prop q.1 q.2)) * G (q.1, q.1) :=
    ((hA.comp hpair).mul (hG.comp hpair)).add ((measurable_const.sub (hA.comp hpair)).mul (hG.comp (measurable_fst.prodMk measurable_fst)))
  have hI : Measurable fun x => ∫⁻ z, (a x (prop x z) * G (x, prop x z) + (1 - a x (prop x z)) * G (x, x)) ∂ρ :=
    hS.lintegral_prod_right'
  rw [lintegral_withDensity_eq_lintegral_mul _ hE hI]
  have hH1 : Measurable fun q : X × Z => E q.1 * (a q.1 (prop q.1 q.2) * G (q.1, prop q.1 q.2)) :=
    (hE.comp measurable_fst).mul ((hA.comp hpair).mul (hG.comp hpair))
  have hH2 : Measurable fun q : X × Z => E q.1 * ((1 - a q.1 (prop q.1 q.2)) * G (q.1, q.1)) :=
    (hE.comp measurable_fst).mul ((measurable_const.sub (hA.comp hpair)).mul (hG.comp (measurable_fst.prodMk measurable_fst)))
  have hH3 : Measurable fun q : X × Z => E q.1 * (a q.1 (prop q.1 q.2) * G (q.1, prop q.1 q.2)) +
      E q.1 * ((1 - a q.1 (prop q.1 q.2)) * G (q.1, q.1)) := hH1.add hH2
  rw [← lintegral_add_left hH1, lintegral_prod _ hH3.aemeasurable]
  refine lintegral_congr fun x => ?_
  rw [Pi.mul_apply]
  have hz : Measurable fun z => a x (prop x z) * G (x, prop x z) + (1 - a x (prop x z)) * G (x, x) :=
    hS.comp (measurable_prodMk_left (x := x))
  rw [← lintegral_const_mul _ hz]
  simp only [mul_add]

/-- The mean of a function of a state and the next. -/
theorem mh_joint_lintegral (hll : Measurable ll) (hp : Measurable fun q : X × Z => prop q.1 q.2) {G : X × X → ENNReal} (hG : Measurable G) :
    ∫⁻ q, G (q.1, mhNext ll prop q) ∂((targetOf ν ll).prod (ρ.prod unitUniform)) =
    ∫⁻ q, EReal.exp (ll q.1) * (acceptProb ll q.1 (prop q.1 q.2) * G (q.1, prop q.1 q.2)) ∂(ν.prod ρ) +
    ∫⁻ q, EReal.exp (ll q.1) * ((1 - acceptProb ll q.1 (prop q.1 q.2)) * G (q.1, q.1)) ∂(ν.prod ρ) := by
  have hn : Measurable (mhNext ll prop) := mhStep_meas hll hp
  have hs1 : SFinite (targetOf ν ll) := by unfold targetOf; infer_instance
  have hm : Measurable fun q : X × Z × ℝ => G (q.1, mhNext ll prop q) := hG.comp (measurable_fst.prodMk hn)
  rw [lintegral_prod _ hm.aemeasurable,
    ← split_lintegral (a := acceptProb ll) (E := fun x => EReal.exp (ll x)) hp (EReal.measurable_exp.comp hll) hG (acceptProb_meas hll)]
  exact lintegral_congr fun x => mhNext_inner hll hp (f := fun y => G (x, y)) (hG.comp measurable_prodMk_left) x

theorem mh_joint (hll : Measurable ll) (ht : ∀ x, ll x ≠ ⊤) (hp : Measurable fun q : X × Z => prop q.1 q.2) (hr : ReversibleProposal ν ρ prop) :
    ((targetOf ν ll).prod (ρ.prod unitUniform)).map (fun q => (mhNext ll prop q, q.1)) =
      ((targetOf ν ll).prod (ρ.prod unitUniform)).map (fun q => (q.1, mhNext ll prop q)) := by
  have hn : Measurable (mhNext ll prop) := mhStep_meas hll hp
  have hE : Measurable fun x => EReal.exp (ll x) := EReal.measurable_exp.comp hll
  have hA := acceptProb_meas hll
  have hs1 : SFinite (targetOf ν ll) := by unfold targetOf; infer_instance
  refine Measure.ext_of_lintegral _ fun F hF => ?_
  have m1 : Measurable fun q : X × Z × ℝ => (mhNext ll prop q, q.1) := hn.prodMk measurable_fst
  have m2 : Measurable fun q : X × Z × ℝ => (q.1, mhNext ll prop q) := measurable_fst.prodMk hn
  have hpair : Measurable fun q : X × Z => (q.1, prop q.1 q.2) := measurable_fst.prodMk hp
  rw [lintegral_map hF m1, lintegral_map hF m2, mh_joint_lintegral hll hp hF]
  have h2 := mh_joint_lintegral (ν := ν) (ρ := ρ) hll hp (G := fun q => F (q.2, q.1)) (hF.comp measurable_swap)
  rw [h2, balance_pairs hp hr hE hF hA (balance ht)]

/-- From every state every set with positive target measure can be reached in one pass. -/
theorem mh_reach (hll : Measurable ll) (ht : ∀ x, ll x ≠ ⊤) (hp : Measurable fun q : X × Z => prop q.1 q.2)
    (hac : ∀ x, ν ≪ ρ.map (prop x)) :
    (targetOf ν ll).prod (targetOf ν ll) ≪ ((targetOf ν ll).prod (ρ.prod unitUniform)).map (fun q => (q.1, mhNext ll prop q)) := by
  have hn : Measurable (mhNext ll prop) := mhStep_meas hll hp
  have hE : Measurable fun x => EReal.exp (ll x) := EReal.measurable_exp.comp hll
  have hA := acceptProb_meas hll
  have hs1 : SFinite (targetOf ν ll) := by unfold targetOf; infer_instance
  have m2 : Measurable fun q : X × Z × ℝ => (q.1, mhNext ll prop q) := measurable_fst.prodMk hn
  refine Measure.AbsolutelyContinuous.mk fun S hS h0 => ?_
  have hG : Measurable (S.indicator (1 : X × X → ENNReal)) := measurable_one.indicator hS
  have hm : Measurable fun q : X × Z × ℝ => S.indicator (1 : X × X → ENNReal) (q.1, mhNext ll prop q) := hG.comp m2
  rw [← lintegral_indicator_one hS, lintegral_map hG m2, lintegral_prod _ hm.aemeasurable, lintegral_eq_zero_iff hm.lintegral_prod_right'] at h0
  rw [Measure.measure_prod_null hS]
  filter_upwards [h0] with x hx
  have hxm : Measurable fun y => S.indicator (1 : X × X → ENNReal) (x, y) := hG.comp (measurable_const.prodMk measurable_id)
  have hpx : Measurable (prop x) := hp.comp (measurable_const.prodMk measurable_id)
  have hax : Measurable fun y => acceptProb ll x y := hA.comp (measurable_const.prodMk measurable_id)
  have e := mhNext_inner (ρ := ρ) hll hp hxm x
  have hx' : ∫⁻ w : Z × ℝ, S.indicator (1 : X × X → ENNReal) (x, mhNext ll prop (x, w)) ∂(ρ.prod unitUniform) = 0 := hx
  rw [hx'] at e
  have hzm : Measurable fun z => acceptProb ll x (prop x z) * S.indicator (1 : X × X → ENNReal) (x, prop x z) +
      (1 - acceptProb ll x (prop x z)) * S.indicator (1 : X × X → ENNReal) (x, x) :=
    ((hax.comp hpx).mul (hxm.comp hpx)).add ((measurable_const.sub (hax.comp hpx)).mul measurable_const)
  have hz := (lintegral_eq_zero_iff hzm).1 e.symm
  have hy : ∀ᵐ y ∂(ρ.map (prop x)), acceptProb ll x y * S.indicator (1 : X × X → ENNReal) (x, y) = 0 := by
    have hprod : Measurable fun y => acceptProb ll x y * S.indicator (1 : X × X → ENNReal) (x, y) := hax.mul hxm
    rw [ae_map_iff hpx.aemeasurable (measurableSet_eq_fun hprod measurable_const)]
    filter_upwards [hz] with z h
    exact (add_eq_zero.1 h).1
  have hyν := (hac x).ae_le hy
  have hyt : ∀ᵐ y ∂(targetOf ν ll), acceptProb ll x y * S.indicator (1 : X × X → ENNReal) (x, y) = 0 :=
    (withDensity_absolutelyContinuous ν _).ae_le hyν
  have hpos : ∀ᵐ y ∂(targetOf ν ll), EReal.exp (ll y) ≠ 0 := by
    rw [targetOf, ae_withDensity_iff hE]
    exact Filter.Eventually.of_forall fun _ h => h
  rw [Pi.zero_apply, measure_eq_zero_iff_ae_notMem]
  filter_upwards [hyt, hpos] with y h1 h2 hmem
  rw [Set.mem_preimage] at hmem
  rw [Set.indicator_of_mem hmem, Pi.one_apply, mul_one, acceptProb_eq_zero ht] at h1
  exact h2 h1

/-- One pass splits into the accepted and the rejected proposals. -/
theorem mh_split (hll : Measurable ll) (ht : ∀ x, ll x ≠ ⊤) (hp : Measurable fun q : X × Z => prop q.1 q.2)
    (hac : ∀ x, ρ.map (prop x) ≪ ν) (μ : Measure X) [IsFiniteMeasure μ] :
    ∃ A : Measure X, A ≪ targetOf ν ll ∧ stepLaw (ρ.prod unitUniform) (mhNext ll prop) μ =
      A + μ.withDensity fun x => ∫⁻ z, (1 - acceptProb ll x (prop x z)) ∂ρ := by
  have hn : Measurable (mhNext ll prop) := mhStep_meas hll hp
  have hE : Measurable fun x => EReal.exp (ll x) := EReal.measurable_exp.comp hll
  have hA := acceptProb_meas hll
  have hpair : Measurable fun q : X × Z => (q.1, prop q.1 q.2) := measurable_fst.prodMk hp
  have hAp : Measurable fun q : X × Z => acceptProb ll q.1 (prop q.1 q.2) := hA.comp hpair
  have hRp : Measurable fun q : X × Z => 1 - acceptProb ll q.1 (prop q.1 q.2) := measurable_const.sub hAp
  have hR : Measurable fun x => ∫⁻ z, (1 - acceptProb ll x (prop x z)) ∂ρ := hRp.lintegral_prod_right'
  refine ⟨((μ.prod ρ).withDensity fun q => acceptProb ll q.1 (prop q.1 q.2)).map fun q => prop q.1 q.2, ?_, ?_⟩
  · refine Measure.AbsolutelyContinuous.mk fun S hS h0 => ?_
    rw [Measure.map_apply hp hS, withDensity_apply _ (hp hS), ← lintegral_indicator (hp hS)]
    have hI : Measurable (((fun q : X × Z => prop q.1 q.2) ⁻¹' S).indicator fun q : X × Z => acceptProb ll q.1 (prop q.1 q.2)) :=
      hAp.indicator (hp hS)
    rw [lintegral_prod _ hI.aemeasurable]
    refine (lintegral_congr fun x => ?_).trans lintegral_zero
    have hy : ∀ᵐ y ∂ν, y ∈ S → EReal.exp (ll y) = 0 := by
      rw [targetOf, withDensity_apply_eq_zero hE] at h0
      rw [ae_iff]
      refine measure_mono_null (fun y hy => ?_) h0
      simp only [Set.mem_setOf_eq, Classical.not_imp] at hy
      exact ⟨hy.2, hy.1⟩
    have hpx : Measurable (prop x) := hp.comp (measurable_const.prodMk measurable_id)
    have hz : ∀ᵐ z ∂ρ, prop x z ∈ S → EReal.exp (ll (prop x z)) = 0 := ae_of_ae_map hpx.aemeasurable ((hac x).ae_le hy)
    have hIx : Measurable fun z => (((fun q : X × Z => prop q.1 q.2) ⁻¹' S).indicator fun q : X × Z => acceptProb ll q.1 (prop q.1 q.2)) (x, z) :=
      hI.comp (measurable_const.prodMk measurable_id)
    rw [lintegral_eq_zero_iff hIx]
    filter_upwards [hz] with z h
    by_cases hm : prop x z ∈ S
    · rw [Set.indicator_of_mem (show (x, z) ∈ (fun q : X × Z => prop q.1 q.2) ⁻¹' S from hm)]
      exact (acceptProb_eq_zero ht x _).2 (h hm)
    · rw [Set.indicator_of_notMem (show (x, z) ∉ (fun q : X × Z => prop q.1 q.2) ⁻¹' S from hm)]
      rfl
  · refine Measure.ext_of_lintegral _ fun f hf => ?_
    have hm : Measurable fun q : X × Z × ℝ => f (mhNext ll prop q) := hf.comp hn
    have hfp : Measurable fun q : X × Z => f (prop q.1 q.2) := hf.comp hp
    rw [stepLaw, lintegral_map hf hn, lintegral_prod _ hm.aemeasurable, lintegral_add_measure, lintegral_map hf hp,
      lintegral_withDensity_eq_lintegral_mul _ hAp hfp, lintegral_withDensity_eq_lintegral_mul _ hR hf]
    have hq : Measurable ((fun q : X × Z => acceptProb ll q.1 (prop q.1 q.2)) * fun q : X × Z => f (prop q.1 q.2)) := hAp.mul (hf.comp hp)
    have hq' : Measurable fun q : X × Z => acceptProb ll q.1 (prop q.1 q.2) * f (prop q.1 q.2) := hq
    have h1 := lintegral_prod (μ := μ) (ν := ρ) _ hq.aemeasurable
    refine Eq.trans ?_ (congrArg (· + _) h1.symm)
    have h4 : Measurable fun x => ∫⁻ z, ((fun q : X × Z => acceptProb ll q.1 (prop q.1 q.2)) * fun q : X × Z => f (prop q.1 q.2)) (x, z) ∂ρ :=
      hq.lintegral_prod_right'
    rw [← lintegral_add_left h4]
    refine lintegral_congr fun x => ?_
    rw [mhNext_inner hll hp hf]
    have h2 : Measurable fun z => acceptProb ll x (prop x z) * f (prop x z) := hq'.comp (measurable_const.prodMk measurable_id)
    have h3 : Measurable fun z => 1 - acceptProb ll x (prop x z) := hRp.comp (measurable_const.prodMk measurable_id)
    rw [lintegral_add_left h2, lintegral_mul_const _ h3]
    rfl

/-- A proposal is accepted with positive probability. -/
theorem mh_reject_lt (hll : Measurable ll) (ht : ∀ x, ll x ≠ ⊤) (hp : Measurable fun q : X × Z => prop q.1 q.2)
    (hac : ∀ x, ν ≪ ρ.map (prop x)) (h0 : targetOf ν ll ≠ 0) (x : X) : ∫⁻ z, (1 - acceptProb ll x (prop x z)) ∂ρ < 1 := by
  have hA := acceptProb_meas hll
  have hE : Measurable fun x => EReal.exp (ll x) := EReal.measurable_exp.comp hll
  have hpx : Measurable (prop x) := hp.comp (measurable_const.prodMk measurable_id)
  have hax : Measurable fun y => acceptProb ll x y := hA.comp (measurable_const.prodMk measurable_id)
  have ha : Measurable fun z => acceptProb ll x (prop x z) := hax.comp hpx
  have hsum : ∫⁻ z, acceptProb ll x (prop x z) ∂ρ + ∫⁻ z, (1 - acceptProb ll x (prop x z)) ∂ρ = 1 := by
    rw [← lintegral_add_left ha]
    have : ∀ z, acceptProb ll x (prop x z) + (1 - acceptProb ll x (prop x z)) = 1 := fun z => add_tsub_cancel_of_le (min_le_left _ _)
    simp [this]
  have hpos : ∫⁻ z, acceptProb ll x (prop x z) ∂ρ ≠ 0 := by
    intro h
    rw [lintegral_eq_zero_iff ha] at h
    have hy : ∀ᵐ y ∂(ρ.map (prop x)), acceptProb ll x y = 0 := by
      rw [ae_map_iff hpx.aemeasurable (measurableSet_eq_fun hax measurable_const)]
      exact h
    have hν := (hac x).ae_le hy
    refine h0 ?_
    rw [targetOf, withDensity_eq_zero_iff hE.aemeasurable]
    filter_upwards [hν] with y hy
    exact (acceptProb_eq_zero ht x y).1 hy
  by_contra hcon
  have h1 := not_lt.1 hcon
  have hlt : (1 : ENNReal) < ∫⁻ z, acceptProb ll x (prop x z) ∂ρ + ∫⁻ z, (1 - acceptProb ll x (prop x z)) ∂ρ := by
    refine lt_of_lt_of_le ?_ (add_le_add_right h1 _)
    rw [add_comm]
    exact ENNReal.lt_add_right ENNReal.one_ne_top hpos
  rw [hsum] at hlt
  exact lt_irrefl _ hlt

/-- Long runs from every starting distribution. -/
theorem mh_mixes (hll : Measurable ll) (ht : ∀ x, ll x ≠ ⊤) (hp : Measurable fun q : X × Z => prop q.1 q.2) (hr : ReversibleProposal ν ρ prop)
    (hac : ∀ x, ρ.map (prop x) ≪ ν) (hac' : ∀ x, ν ≪ ρ.map (prop x)) (h0 : targetOf ν ll ≠ 0) (μ : Measure X) [IsFiniteMeasure μ] :
    Mixes (targetOf ν ll) (ρ.prod unitUniform) (mhNext ll prop) μ := by
  have hA := acceptProb_meas hll
  have hRp : Measurable fun q : X × Z => 1 - acceptProb ll q.1 (prop q.1 q.2) :=
    measurable_const.sub (hA.comp (measurable_fst.prodMk hp))
  have hσ : SigmaFinite (targetOf ν ll) := by
    unfold targetOf
    refine SigmaFinite.withDensity_of_ne_top (Filter.Eventually.of_forall fun x => ?_)
    simp [EReal.exp_eq_top_iff, ht x]
  have hpres : MeasurePreserving (mhNext ll prop) ((targetOf ν ll).prod (ρ.prod unitUniform)) (targetOf ν ll) :=
    ⟨mhStep_meas hll hp, C90_step hll ht hp hr⟩
  exact Mixes_all hpres (mh_joint hll ht hp hr) (mh_reach hll ht hp hac') _ hRp.lintegral_prod_right'
    (mh_reject_lt hll ht hp hac' h0) (fun μ _ => mh_split hll ht hp hac μ) μ

theorem pi_ac : ∀ (d : Nat) (μ ν : Fin d → Measure ℝ), (∀ i, SigmaFinite (μ i)) → (∀ i, SigmaFinite (ν i)) → (∀ i, μ i ≪ ν i) →
    Measure.pi μ ≪ Measure.pi ν := by
  intro d
  induction d with
  | zero =>
    intro μ ν _ _ _
    rw [Measure.pi_of_empty μ, Measure.pi_of_empty ν]
  | succ d ih =>
    intro μ ν hμ hν h
    have e1 := (measurePreserving_piFinSuccAbove μ 0).symm
    have e2 := (measurePreserving_piFinSuccAbove ν 0).symm
    rw [← e1.map_eq, ← e2.map_eq]
    exact ((h 0).prod (ih _ _ (fun i => hμ _) (fun i => hν _) fun i => h _)).map e1.measurable

/-- The normal proposals have a positive density. -/
theorem normalProp_ac {d : Nat} {std : ℝ} (hs : std ≠ 0) (x : Fin d → ℝ) :
    (stdNormals d).map (normalPropDist std x) ≪ volume ∧ volume ≪ (stdNormals d).map (normalPropDist std x) := by
  have h1 : ∀ j, (ProbabilityTheory.gaussianReal 0 1).map (fun z => x j + std * z) = ProbabilityTheory.gaussianReal (x j) (Real.toNNReal (std ^ 2)) := by
    intro j
    have : (fun z : ℝ => x j + std * z) = (fun z => x j + z) ∘ fun z => std * z := rfl
    rw [this, ← Measure.map_map (by fun_prop) (by fun_prop), ProbabilityTheory.gaussianReal_map_const_mul,
      ProbabilityTheory.gaussianReal_map_const_add]
    congr 1
    · ring
    · ext
      simp [sq_nonneg]
  have hv : Real.toNNReal (std ^ 2) ≠ 0 := by
    rw [Ne, Real.toNNReal_eq_zero, not_le]; positivity
  have hf := Measure.pi_map_pi (μ := fun _ : Fin d => ProbabilityTheory.gaussianReal 0 1) (f := fun j z => x j + std * z)
    (hμ := fun i => by rw [h1 i]; infer_instance) (fun _ => by fun_prop)
  have e : (stdNormals d).map (normalPropDist std x) =
      Measure.pi fun j => ProbabilityTheory.gaussianReal (x j) (Real.toNNReal (std ^ 2)) := by
    simp only [h1] at hf
    exact hf
  rw [e, volume_pi]
  exact ⟨pi_ac d _ _ (fun _ => inferInstance) (fun _ => inferInstance) fun j => ProbabilityTheory.gaussianReal_absolutelyContinuous _ hv,
    pi_ac d _ _ (fun _ => inferInstance) (fun _ => inferInstance) fun j => ProbabilityTheory.gaussianReal_absolutelyContinuous' _ hv⟩

end Lop
