import Verif.Props.Sampling
import Verif.Spec.Stationary
import Verif.Model.Laplace
import Verif.Proofs.OrdProbit
import Mathlib.MeasureTheory.Measure.Lebesgue.EqHaar
import Mathlib.Probability.Independence.InfinitePi

/-! # C90: the Metropolis sampler keeps its target distribution -/

namespace Lop.Props

open Lop Lop.Spec MeasureTheory

variable {X Z : Type*} [MeasurableSpace X] [MeasurableSpace Z]

instance : IsProbabilityMeasure unitUniform := ⟨by simp [unitUniform]⟩

/-- The probability of accepting. -/
noncomputable def acceptProb (ll : X → EReal) (x y : X) : ENNReal := min 1 (EReal.exp (ll y - ll x))

theorem unitUniform_lt (a : ENNReal) : unitUniform {v : ℝ | ENNReal.ofReal v < a} = min 1 a := by
  have hm : MeasurableSet {v : ℝ | ENNReal.ofReal v < a} := measurableSet_lt ENNReal.measurable_ofReal measurable_const
  rw [unitUniform, Measure.restrict_apply hm]
  rcases eq_or_ne a ⊤ with rfl | ha
  · have : {v : ℝ | ENNReal.ofReal v < ⊤} ∩ Set.Ico 0 1 = Set.Ico 0 1 := by
      ext v; simp
    rw [this]; simp
  · have : {v : ℝ | ENNReal.ofReal v < a} ∩ Set.Ico 0 1 = Set.Ico 0 (min 1 a.toReal) := by
      ext v
      simp only [Set.mem_inter_iff, Set.mem_setOf_eq, Set.mem_Ico, lt_min_iff]
      constructor
      · rintro ⟨h1, h2, h3⟩
        exact ⟨h2, h3, (ENNReal.ofReal_lt_iff_lt_toReal h2 ha).1 h1⟩
      · rintro ⟨h2, h3, h1⟩
        exact ⟨(ENNReal.ofReal_lt_iff_lt_toReal h2 ha).2 h1, h2, h3⟩
    rw [this, Real.volume_Ico, sub_zero, ENNReal.ofReal_min, ENNReal.ofReal_one, ENNReal.ofReal_toReal ha]

/-- Detailed balance. -/
theorem balance {ll : X → EReal} (ht : ∀ x, ll x ≠ ⊤) (x y : X) :
    EReal.exp (ll x) * acceptProb ll x y = EReal.exp (ll y) * acceptProb ll y x := by
  have key : ∀ a b : EReal, a ≠ ⊤ → b ≠ ⊤ → EReal.exp a * min 1 (EReal.exp (b - a)) = min (EReal.exp a) (EReal.exp b) := by
    intro a b ha hb
    induction a using EReal.rec with
    | bot => simp
    | top => exact absurd rfl ha
    | coe a =>
      induction b using EReal.rec with
      | bot => simp
      | top => exact absurd rfl hb
      | coe b =>
        rw [mul_min, mul_one]
        congr 1
        rw [← EReal.coe_sub, EReal.exp_coe, EReal.exp_coe, EReal.exp_coe, ← ENNReal.ofReal_mul (Real.exp_pos _).le, ← Real.exp_add]
        congr 2
        ring
  rw [acceptProb, acceptProb, key _ _ (ht x) (ht y), key _ _ (ht y) (ht x), min_comm]

theorem acceptSet_meas {ll : X → EReal} (hll : Measurable ll) {prop : X → Z → X} (hp : Measurable fun q : X × Z => prop q.1 q.2) :
    MeasurableSet {q : X × Z × ℝ | ENNReal.ofReal q.2.2 < EReal.exp (ll (prop q.1 q.2.1) - ll q.1)} := by
  refine measurableSet_lt (ENNReal.measurable_ofReal.comp (measurable_snd.comp measurable_snd)) (EReal.measurable_exp.comp ?_)
  have h1 : Measurable fun q : X × Z × ℝ => ll (prop q.1 q.2.1) :=
    hll.comp (hp.comp (measurable_fst.prodMk (measurable_fst.comp measurable_snd)))
  have h2 : Measurable fun q : X × Z × ℝ => - ll q.1 := continuous_neg.measurable.comp (hll.comp measurable_fst)
  exact h1.add h2

theorem mhStep_meas {ll : X → EReal} (hll : Measurable ll) {prop : X → Z → X} (hp : Measurable fun q : X × Z => prop q.1 q.2) :
    Measurable fun q : X × Z × ℝ => (mhStep ll (fun _ x => prop x q.2.1) (fun _ => q.2.2) 0 (q.1, ll q.1)).1 := by
  have : (fun q : X × Z × ℝ => (mhStep ll (fun _ x => prop x q.2.1) (fun _ => q.2.2) 0 (q.1, ll q.1)).1) =
      fun q => if ENNReal.ofReal q.2.2 < EReal.exp (ll (prop q.1 q.2.1) - ll q.1) then prop q.1 q.2.1 else q.1 := by
    funext q
    simp only [mhStep]
    split_ifs <;> rfl
  rw [this]
  exact Measurable.ite (acceptSet_meas hll hp) (hp.comp (measurable_fst.prodMk (measurable_fst.comp measurable_snd))) measurable_fst

/-- Balance leaves the integral of every function as it is. -/
theorem balance_lintegral {ν : Measure X} [SFinite ν] {ρ : Measure Z} [IsProbabilityMeasure ρ] {prop : X → Z → X}
    (hp : Measurable fun q : X × Z => prop q.1 q.2) (hr : ReversibleProposal ν ρ prop) {E f : X → ENNReal} {a : X → X → ENNReal}
    (hE : Measurable E) (hf : Measurable f) (hA : Measurable fun q : X × X => a q.1 q.2) (ha1 : ∀ x y, a x y ≤ 1)
    (hb : ∀ x y, E x * a x y = E y * a y x) :
    (Measurable fun x => ∫⁻ z, (a x (prop x z) * f (prop x z) + (1 - a x (prop x z)) * f x) ∂ρ) ∧
    ∫⁻ x, (E * fun x => ∫⁻ z, (a x (prop x z) * f (prop x z) + (1 - a x (prop x z)) * f x) ∂ρ) x ∂ν = ∫⁻ x, (E * f) x ∂ν := by
  have hpair : Measurable fun q : X × Z => (q.1, prop q.1 q.2) := measurable_fst.prodMk hp
  have hswap : Measurable fun q : X × Z => (prop q.1 q.2, q.1) := hp.prodMk measurable_fst
  have hG1 : Measurable fun q : X × X => E q.1 * a q.1 q.2 * f q.2 :=
    ((hE.comp measurable_fst).mul hA).mul (hf.comp measurable_snd)
  have hG2 : Measurable fun q : X × X => E q.1 * (1 - a q.1 q.2) * f q.1 :=
    ((hE.comp measurable_fst).mul (measurable_const.sub hA)).mul (hf.comp measurable_fst)
  have hG3 : Measurable fun q : X × X => E q.1 * a q.1 q.2 * f q.1 :=
    ((hE.comp measurable_fst).mul hA).mul (hf.comp measurable_fst)
  have hH1 : Measurable fun q : X × Z => E q.1 * a q.1 (prop q.1 q.2) * f (prop q.1 q.2) := hG1.comp hpair
  have hH2 : Measurable fun q : X × Z => E q.1 * (1 - a q.1 (prop q.1 q.2)) * f q.1 := hG2.comp hpair
  have hH3 : Measurable fun q : X × Z => E q.1 * a q.1 (prop q.1 q.2) * f q.1 := hG3.comp hpair
  have hH4 : Measurable fun q : X × Z => E q.1 * a q.1 (prop q.1 q.2) * f (prop q.1 q.2) +
      E q.1 * (1 - a q.1 (prop q.1 q.2)) * f q.1 := hH1.add hH2
  have hH5 : Measurable fun q : X × Z => E q.1 * f q.1 := (hE.comp measurable_fst).mul (hf.comp measurable_fst)
  have hS : Measurable fun q : X × Z => a q.1 (prop q.1 q.2) * f (prop q.1 q.2) + (1 - a q.1 (prop q.1 q.2)) * f q.1 :=
    ((hA.comp hpair).mul (hf.comp hp)).add ((measurable_const.sub (hA.comp hpair)).mul (hf.comp measurable_fst))
  refine ⟨hS.lintegral_prod_right', ?_⟩
  have swap : ∫⁻ q, E q.1 * a q.1 (prop q.1 q.2) * f (prop q.1 q.2) ∂(ν.prod ρ) =
      ∫⁻ q, E q.1 * a q.1 (prop q.1 q.2) * f q.1 ∂(ν.prod ρ) := by
    have h1 := lintegral_map hG1 hpair (μ := ν.prod ρ)
    rw [← hr, lintegral_map hG1 hswap] at h1
    rw [← h1]
    refine lintegral_congr fun q => ?_
    rw [hb]
  calc ∫⁻ x, (E * fun x => ∫⁻ z, (a x (prop x z) * f (prop x z) + (1 - a x (prop x z)) * f x) ∂ρ) x ∂ν
      = ∫⁻ x, ∫⁻ z, (E x * a x (prop x z) * f (prop x z) + E x * (1 - a x (prop x z)) * f x) ∂ρ ∂ν := by
        refine lintegral_congr fun x => ?_
        have hz : Measurable fun z => a x (prop x z) * f (prop x z) + (1 - a x (prop x z)) * f x :=
          hS.comp (measurable_const.prodMk measurable_id)
        refine Eq.trans (lintegral_const_mul _ hz).symm (lintegral_congr fun z => ?_)
        rw [mul_add, mul_assoc, mul_assoc]
    _ = ∫⁻ q, (E q.1 * a q.1 (prop q.1 q.2) * f (prop q.1 q.2) +
          E q.1 * (1 - a q.1 (prop q.1 q.2)) * f q.1) ∂(ν.prod ρ) :=
        (lintegral_prod _ hH4.aemeasurable).symm
    _ = ∫⁻ q, E q.1 * a q.1 (prop q.1 q.2) * f (prop q.1 q.2) ∂(ν.prod ρ) +
          ∫⁻ q, E q.1 * (1 - a q.1 (prop q.1 q.2)) * f q.1 ∂(ν.prod ρ) := lintegral_add_left hH1 _
    _ = ∫⁻ q, E q.1 * a q.1 (prop q.1 q.2) * f q.1 ∂(ν.prod ρ) +
          ∫⁻ q, E q.1 * (1 - a q.1 (prop q.1 q.2)) * f q.1 ∂(ν.prod ρ) := by rw [swap]
    _ = ∫⁻ q : X × Z, E q.1 * f q.1 ∂(ν.prod ρ) := by
        rw [← lintegral_add_left hH3]
        refine lintegral_congr fun q => ?_
        have h1 : a q.1 (prop q.1 q.2) + (1 - a q.1 (prop q.1 q.2)) = 1 :=
          add_tsub_cancel_of_le (ha1 _ _)
        calc _ = E q.1 * f q.1 * (a q.1 (prop q.1 q.2) + (1 - a q.1 (prop q.1 q.2))) := by ring
          _ = _ := by rw [h1, mul_one]
    _ = ∫⁻ x, (E * f) x ∂ν := by
        rw [lintegral_prod _ hH5.aemeasurable]
        simp

/-- C90: one pass of `metropolis_hastings` with reversible proposals keeps the distribution with density `e ^ log_liklihood`. -/
theorem C90_step {ν : Measure X} [SFinite ν] {ρ : Measure Z} [IsProbabilityMeasure ρ] {ll : X → EReal} (hll : Measurable ll)
    (ht : ∀ x, ll x ≠ ⊤) {prop : X → Z → X} (hp : Measurable fun q : X × Z => prop q.1 q.2) (hr : ReversibleProposal ν ρ prop) :
    ((targetOf ν ll).prod (ρ.prod unitUniform)).map
        (fun q => (mhStep ll (fun _ x => prop x q.2.1) (fun _ => q.2.2) 0 (q.1, ll q.1)).1) = targetOf ν ll := by
  have hE : Measurable fun x => EReal.exp (ll x) := EReal.measurable_exp.comp hll
  have hA : Measurable fun q : X × X => acceptProb ll q.1 q.2 := by
    refine measurable_const.min (EReal.measurable_exp.comp ?_)
    have h2 : Measurable fun q : X × X => - ll q.1 := continuous_neg.measurable.comp (hll.comp measurable_fst)
    exact (hll.comp measurable_snd).add h2
  refine Measure.ext_of_lintegral _ fun f hf => ?_
  have hfm : Measurable fun q : X × Z × ℝ => f (mhStep ll (fun _ x => prop x q.2.1) (fun _ => q.2.2) 0 (q.1, ll q.1)).1 :=
    hf.comp (mhStep_meas hll hp)
  rw [lintegral_map hf (mhStep_meas hll hp), lintegral_prod _ hfm.aemeasurable]
  have inner : ∀ x, ∫⁻ w : Z × ℝ, f (mhStep ll (fun _ x => prop x w.1) (fun _ => w.2) 0 (x, ll x)).1 ∂(ρ.prod unitUniform) =
      ∫⁻ z, (acceptProb ll x (prop x z) * f (prop x z) + (1 - acceptProb ll x (prop x z)) * f x) ∂ρ := by
    intro x
    have hm : Measurable fun w : Z × ℝ => f (mhStep ll (fun _ x => prop x w.1) (fun _ => w.2) 0 (x, ll x)).1 :=
      (hf.comp (mhStep_meas hll hp)).comp (measurable_const.prodMk measurable_id)
    rw [lintegral_prod _ hm.aemeasurable]
    refine lintegral_congr fun z => ?_
    have hs : MeasurableSet {v : ℝ | ENNReal.ofReal v < EReal.exp (ll (prop x z) - ll x)} :=
      measurableSet_lt ENNReal.measurable_ofReal measurable_const
    rw [← lintegral_add_compl _ hs]
    have e1 : ∫⁻ v in {v : ℝ | ENNReal.ofReal v < EReal.exp (ll (prop x z) - ll x)},
        f (mhStep ll (fun _ x => prop x z) (fun _ => v) 0 (x, ll x)).1 ∂unitUniform = acceptProb ll x (prop x z) * f (prop x z) := by
      rw [setLIntegral_congr_fun hs (g := fun _ => f (prop x z)), setLIntegral_const, unitUniform_lt, acceptProb, mul_comm]
      intro v hv
      simp only [Set.mem_setOf_eq] at hv
      simp [mhStep, hv]
    have e2 : ∫⁻ v in {v : ℝ | ENNReal.ofReal v < EReal.exp (ll (prop x z) - ll x)}ᶜ,
        f (mhStep ll (fun _ x => prop x z) (fun _ => v) 0 (x, ll x)).1 ∂unitUniform = (1 - acceptProb ll x (prop x z)) * f x := by
      rw [setLIntegral_congr_fun hs.compl (g := fun _ => f x), setLIntegral_const, prob_compl_eq_one_sub hs, unitUniform_lt, acceptProb, mul_comm]
      intro v hv
      simp only [Set.mem_compl_iff, Set.mem_setOf_eq] at hv
      simp [mhStep, hv]
    exact congrArg₂ (· + ·) e1 e2
  simp only [inner]
  have key := balance_lintegral hp hr hE hf hA (fun _ _ => min_le_left _ _) (balance ht)
  rw [targetOf, lintegral_withDensity_eq_lintegral_mul _ hE key.1, lintegral_withDensity_eq_lintegral_mul _ hE hf]
  exact key.2

/-- Adding symmetric noise is reversible for a translation-invariant measure. -/
theorem reversible_add [AddCommGroup X] [MeasurableAdd₂ X] [MeasurableNeg X] {ν : Measure X} [SFinite ν] [ν.IsAddRightInvariant]
    [AddCommGroup Z] [MeasurableNeg Z] {ρ : Measure Z} [SFinite ρ] (hρ : ρ.map (fun z => -z) = ρ) {h : Z → X} (hm : Measurable h)
    (ho : ∀ z, h (-z) = -h z) : ReversibleProposal ν ρ fun x z => x + h z := by
  have hadd : Measurable fun q : X × Z => q.1 + h q.2 := measurable_fst.add (hm.comp measurable_snd)
  refine Measure.ext_of_lintegral _ fun g hg => ?_
  have m1 : Measurable fun q : X × Z => (q.1 + h q.2, q.1) := hadd.prodMk measurable_fst
  have m2 : Measurable fun q : X × Z => (q.1, q.1 + h q.2) := measurable_fst.prodMk hadd
  have g1 : Measurable fun q : X × Z => g (q.1 + h q.2, q.1) := hg.comp m1
  have g2 : Measurable fun q : X × Z => g (q.1, q.1 + h q.2) := hg.comp m2
  rw [lintegral_map hg m1, lintegral_map hg m2, lintegral_prod_symm _ g1.aemeasurable, lintegral_prod_symm _ g2.aemeasurable]
  have e1 : ∀ z, ∫⁻ x, g (x + h z, x) ∂ν = ∫⁻ x, g (x, x + h (-z)) ∂ν := by
    intro z
    have := lintegral_add_right_eq_self (μ := ν) (fun x => g (x, x + h (-z))) (h z)
    rw [← this]
    refine lintegral_congr fun x => ?_
    rw [ho, add_neg_cancel_right]
  simp only [e1]
  have g3 : Measurable fun z => ∫⁻ x, g (x, x + h z) ∂ν := g2.lintegral_prod_left'
  rw [← lintegral_map g3 measurable_neg, hρ]

theorem stdNormals_neg (d : Nat) : (stdNormals d).map (fun z => -z) = stdNormals d := by
  have : ∀ _ : Fin d, (ProbabilityTheory.gaussianReal 0 1).map (fun x => -x) = ProbabilityTheory.gaussianReal 0 1 := fun _ => by
    rw [ProbabilityTheory.gaussianReal_map_neg, neg_zero]
  have hf := Measure.pi_map_pi (μ := fun _ : Fin d => ProbabilityTheory.gaussianReal 0 1) (f := fun _ x => -x)
    (hμ := fun i => by rw [this i]; infer_instance) (fun _ => measurable_neg.aemeasurable)
  have e : (fun _ : Fin d => (ProbabilityTheory.gaussianReal 0 1).map (fun x : ℝ => -x)) = fun _ => ProbabilityTheory.gaussianReal 0 1 :=
    funext this
  simp only [e] at hf
  exact hf

instance (d : Nat) : IsProbabilityMeasure (stdNormals d) := by unfold stdNormals; infer_instance

/-- C90: the proposals of `normal_prop_dist` are reversible, whatever the standard deviation. -/
theorem C90_normal_reversible (d : Nat) (std : ℝ) : ReversibleProposal volume (stdNormals d) (normalPropDist std) := by
  have hm : Measurable fun z : Fin d → ℝ => fun j => std * z j := measurable_pi_lambda _ fun j => (measurable_pi_apply j).const_mul _
  exact reversible_add (stdNormals_neg d) hm fun z => by funext j; simp

/-- The state of the chain as a function of starting point and draws. -/
noncomputable def histChain (ll : X → EReal) (prop : X → Z → X) : (i : Nat) → X × (Fin i → Z × ℝ) → X
  | 0, q => q.1
  | i + 1, q =>
    let x := histChain ll prop i (q.1, fun j => q.2 j.castSucc)
    (mhStep ll (fun _ x => prop x (q.2 (Fin.last i)).1) (fun _ => (q.2 (Fin.last i)).2) 0 (x, ll x)).1

theorem histChain_meas {ll : X → EReal} (hll : Measurable ll) {prop : X → Z → X} (hp : Measurable fun q : X × Z => prop q.1 q.2) (i : Nat) :
    Measurable (histChain ll prop i) := by
  induction i with
  | zero => exact measurable_fst
  | succ i ih =>
    have h1 : Measurable fun q : X × (Fin (i + 1) → Z × ℝ) => histChain ll prop i (q.1, fun j => q.2 j.castSucc) :=
      ih.comp (measurable_fst.prodMk (measurable_pi_lambda _ fun j => (measurable_pi_apply _).comp measurable_snd))
    have h2 : Measurable fun q : X × (Fin (i + 1) → Z × ℝ) => q.2 (Fin.last i) := (measurable_pi_apply _).comp measurable_snd
    exact (mhStep_meas hll hp).comp (h1.prodMk h2)

/-- C90: if the chain starts in its target distribution, then every sample `metropolis_hastings` returns has this distribution, whatever the numbers of
samples and of burnt steps. -/
theorem C90_samples {Ω : Type*} [MeasurableSpace Ω] {μ : Measure Ω} [IsProbabilityMeasure μ] {ν : Measure X} [SFinite ν] {ρ : Measure Z}
    [IsProbabilityMeasure ρ] {ll : X → EReal} (hll : Measurable ll) (ht : ∀ x, ll x ≠ ⊤) {prop : X → Z → X}
    (hp : Measurable fun q : X × Z => prop q.1 q.2) (hr : ReversibleProposal ν ρ prop) {x0 : Ω → X} {z : Nat → Ω → Z} {u : Nat → Ω → ℝ}
    (hd : FreshDraws μ ρ x0 z u) (h0 : μ.map x0 = targetOf ν ll) (numSamples burn j : Nat) (hj : j < numSamples) :
    ∃ S : Ω → X, Measurable S ∧ μ.map S = targetOf ν ll ∧ ∀ ω,
      (metropolisHastings ll numSamples burn (x0 ω) (fun i x => prop x (z i ω)) (fun i => u i ω))[j]? = some (S ω) := by
  let chain : Nat → Ω → X := fun i ω => histChain ll prop i (x0 ω, fun j => (z j ω, u j ω))
  have hdraws : ∀ i, Measurable fun ω => (x0 ω, fun j : Fin i => (z j ω, u j ω)) := fun i =>
    hd.start.prodMk (measurable_pi_lambda _ fun j => (hd.noise _).prodMk (hd.thresh _))
  have hcm : ∀ i, Measurable (chain i) := fun i => (histChain_meas hll hp i).comp (hdraws i)
  have hstep : ∀ i ω, chain (i + 1) ω = (mhStep ll (fun _ x => prop x (z i ω)) (fun _ => u i ω) 0 (chain i ω, ll (chain i ω))).1 := by
    intro i ω
    simp only [chain, histChain, Fin.val_last, Fin.val_castSucc]
  have hlaw : ∀ i, μ.map (chain i) = targetOf ν ll := by
    intro i
    induction i with
    | zero => exact h0
    | succ i ih =>
      have hzu : Measurable fun ω => (z i ω, u i ω) := (hd.noise i).prodMk (hd.thresh i)
      have hind : ProbabilityTheory.IndepFun (chain i) (fun ω => (z i ω, u i ω)) μ :=
        (hd.indep i).comp (histChain_meas hll hp i) measurable_id
      rw [ProbabilityTheory.indepFun_iff_map_prod_eq_prod_map_map (hcm i).aemeasurable hzu.aemeasurable, ih, hd.law i] at hind
      have : chain (i + 1) = (fun q : X × Z × ℝ => (mhStep ll (fun _ x => prop x q.2.1) (fun _ => q.2.2) 0 (q.1, ll q.1)).1) ∘
          fun ω => (chain i ω, (z i ω, u i ω)) := funext fun ω => hstep i ω
      rw [this, ← Measure.map_map (mhStep_meas hll hp) ((hcm i).prodMk hzu), hind, C90_step hll ht hp hr]
  refine ⟨chain (burn + j + 1), hcm _, hlaw _, fun ω => ?_⟩
  have hrun := mhLoop_eq (ll := ll) (prop := fun i x => prop x (z i ω)) (u := fun i => u i ω) (burn := burn) (fun i => chain i ω) (by
    intro i
    rw [hstep]
    simp only [mhStep]
    split_ifs <;> rfl) (numSamples + burn) 0
  rw [range'_filter_ge] at hrun
  have e : metropolisHastings ll numSamples burn (x0 ω) (fun i x => prop x (z i ω)) (fun i => u i ω) =
      List.map (fun j => chain (j + 1) ω) (List.range' burn numSamples) := hrun
  rw [e]
  simp [hj, List.getElem?_range']

/-! ## The samples of the linear model -/

theorem prefLogLik_bounded {n : Nat} (sigma : ℝ) (y : List (IPair n)) : ∃ B : ℝ, ∀ F : Fin n → ℝ, B ≤ prefLogLik sigma y F := by
  refine ⟨(y.map fun _ => Real.log (Phi (-30))).sum, fun F => ?_⟩
  refine List.sum_le_sum fun p _ => Real.log_le_log (Phi_pos _) ?_
  exact Phi_strictMono.monotone (clip_range _).1

/-- The logarithm of the beta density of a rating is continuous in the mean. -/
theorem betaLog_contOn {v eps y : ℝ} (hv : 0 < v) (he : 0 < eps) (hy : 0 < y) (hy1 : y < 1) :
    ContinuousOn (fun m : ℝ => Real.log (ProbabilityTheory.betaPDFReal (v * m) (v - v * m) y)) (Set.Icc eps (1 - eps)) := by
  have hb : ∀ m ∈ Set.Icc eps (1 - eps), 0 < v * m ∧ 0 < v - v * m := by
    intro m hm
    have h1 : 0 < m := lt_of_lt_of_le he hm.1
    have h2 : m < 1 := by linarith [hm.2]
    exact ⟨mul_pos hv h1, by nlinarith⟩
  have hG : ∀ g : ℝ → ℝ, ContinuousOn g (Set.Icc eps (1 - eps)) → (∀ m ∈ Set.Icc eps (1 - eps), 0 < g m) →
      ContinuousOn (fun m => Real.Gamma (g m)) (Set.Icc eps (1 - eps)) := by
    intro g hg hpos m hm
    have : ContinuousAt Real.Gamma (g m) := (Real.differentiableAt_Gamma fun k => by
      have := hpos m hm
      have hk : (0 : ℝ) ≤ k := Nat.cast_nonneg k
      linarith).continuousAt
    exact this.comp_continuousWithinAt (hg m hm)
  have ca : ContinuousOn (fun m : ℝ => v * m) (Set.Icc eps (1 - eps)) := by fun_prop
  have cb : ContinuousOn (fun m : ℝ => v - v * m) (Set.Icc eps (1 - eps)) := by fun_prop
  have cs : ContinuousOn (fun m : ℝ => v * m + (v - v * m)) (Set.Icc eps (1 - eps)) := by fun_prop
  have hbeta : ContinuousOn (fun m : ℝ => ProbabilityTheory.beta (v * m) (v - v * m)) (Set.Icc eps (1 - eps)) := by
    unfold ProbabilityTheory.beta
    refine ((hG _ ca fun m hm => (hb m hm).1).mul (hG _ cb fun m hm => (hb m hm).2)).div
      (hG _ cs fun m hm => add_pos (hb m hm).1 (hb m hm).2) fun m hm => ?_
    exact (Real.Gamma_pos_of_pos (add_pos (hb m hm).1 (hb m hm).2)).ne'
  have e : ∀ m, ProbabilityTheory.betaPDFReal (v * m) (v - v * m) y =
      1 / ProbabilityTheory.beta (v * m) (v - v * m) * y ^ (v * m - 1) * (1 - y) ^ (v - v * m - 1) := fun m => by
    rw [ProbabilityTheory.betaPDFReal, if_pos ⟨hy, hy1⟩]
  simp only [e]
  refine ContinuousOn.log ?_ fun m hm => ?_
  · refine ((continuousOn_const.div hbeta fun m hm => (ProbabilityTheory.beta_pos (hb m hm).1 (hb m hm).2).ne').mul ?_).mul ?_
    · exact ContinuousOn.rpow continuousOn_const (by fun_prop) fun m _ => .inl hy.ne'
    · exact ContinuousOn.rpow continuousOn_const (by fun_prop) fun m _ => .inl (by linarith)
  · have := ProbabilityTheory.beta_pos (hb m hm).1 (hb m hm).2
    have h1 : 0 < 1 - y := by linarith
    positivity

/-- The mean of a rating is kept away from zero and one. -/
theorem meanLink_mem {sigma eps f : ℝ} (he2 : eps ≤ 1 / 2) : meanLink sigma eps f ∈ Set.Icc eps (1 - eps) := by
  unfold meanLink npClip
  constructor
  · simp only [le_min_iff]; exact ⟨le_max_right _ _, by linarith⟩
  · exact min_le_right _ _

theorem absPy_bounded {sigma v eps y : ℝ} (hv : 0 < v) (he : 0 < eps) (he2 : eps ≤ 1 / 2) (hy : 0 < y) (hy1 : y < 1) :
    ∃ B : ℝ, ∀ f, B ≤ absPy sigma v eps y f := by
  have hcont := betaLog_contOn hv he hy hy1
  obtain ⟨m0, _, hm0⟩ := isCompact_Icc.exists_isMinOn (Set.nonempty_Icc.2 (by linarith)) hcont
  exact ⟨_, fun f => hm0 (a := meanLink sigma eps f) (meanLink_mem he2)⟩

theorem absLogLik_bounded {n : Nat} {sigma v eps : ℝ} (hv : 0 < v) (he : 0 < eps) (he2 : eps ≤ 1 / 2) {y : List (ℝ × Fin n)}
    (hy : ∀ p ∈ y, 0 < p.1 ∧ p.1 < 1) : ∃ B : ℝ, ∀ F : Fin n → ℝ, B ≤ absLogLik sigma v eps y F := by
  have h1 : ∃ B : ℝ, B ≤ 0 ∧ ∀ p ∈ y, ∀ f, B ≤ absPy sigma v eps p.1 f := by
    induction y with
    | nil => exact ⟨0, le_rfl, by simp⟩
    | cons p y ih =>
      obtain ⟨B, hB0, hB⟩ := ih fun q hq => hy q (List.mem_cons_of_mem _ hq)
      obtain ⟨C, hC⟩ := absPy_bounded (sigma := sigma) hv he he2 (hy p List.mem_cons_self).1 (hy p List.mem_cons_self).2
      refine ⟨min B C, (min_le_left _ _).trans hB0, fun q hq f => ?_⟩
      rcases List.mem_cons.1 hq with rfl | hq
      · exact (min_le_right _ _).trans (hC f)
      · exact (min_le_left _ _).trans (hB q hq f)
  obtain ⟨B, hB0, hB⟩ := h1
  have h2 : ∀ (l : List (Fin n × ℝ)) (M : Fin n → ℝ), (∀ e ∈ l, B ≤ e.2) → (∀ i, B ≤ M i) →
      ∀ i, B ≤ l.foldl (fun M e => Function.update M e.1 e.2) M i := by
    intro l
    induction l with
    | nil => intro M _ hM i; exact hM i
    | cons e l ih =>
      intro M hl hM i
      refine ih _ (fun e' he' => hl e' (List.mem_cons_of_mem _ he')) (fun k => ?_) i
      by_cases hk : k = e.1
      · subst hk; simp only [Function.update_self]; exact hl e List.mem_cons_self
      · simp only [Function.update_of_ne hk]; exact hM k
  refine ⟨∑ _i : Fin n, B, fun F => Finset.sum_le_sum fun i _ => ?_⟩
  refine h2 _ _ (fun e he => ?_) (fun _ => hB0) i
  obtain ⟨p, hp, rfl⟩ := List.mem_map.1 he
  exact hB p hp _

/-- C90, refuted for the linear model: the learners sample the weights with `loss_func` as the logarithm of the density. Whatever pairs and ratings the
model is trained on, `e ^ loss_func` is bounded below by a positive number, so no multiple of it is the density of a distribution: there is
no distribution the samples could have or approach. -/
theorem C90_linear_false {n d : Nat} (hd : 0 < d) (P : ProbitSet) (hv : 0 < P.absV) (he : 0 < P.absEps) (he2 : P.absEps ≤ 1 / 2)
    (y : TrainLabels n) (ho : y.ord = none) (hy : ∀ r ∈ y.abs, ∀ p ∈ r, 0 < p.1 ∧ p.1 < 1) (X : Matrix (Fin n) (Fin d) ℝ)
    (ll : (Fin d → ℝ) → EReal) (hll : ∀ w, ∃ v : ℝ, linLoss P y X w = .ok (some v) ∧ ll w = v) :
    targetOf volume ll Set.univ = ⊤ ∧ ∀ c : ENNReal, ¬ IsProbabilityMeasure (c • targetOf volume ll) := by
  have hB : ∃ B : ℝ, ∀ w, (B : EReal) ≤ ll w := by
    have hp : ∃ B : ℝ, ∀ F, B ≤ pairLogPart P F y.pairs := by
      cases h : y.pairs with
      | none => exact ⟨0, fun _ => le_rfl⟩
      | some l => exact prefLogLik_bounded P.sigma l
    have ha : ∃ B : ℝ, ∀ F, B ≤ absLogPart P F y.abs := by
      cases h : y.abs with
      | none => exact ⟨0, fun _ => le_rfl⟩
      | some l => exact absLogLik_bounded hv he he2 (hy l h)
    obtain ⟨B, hB⟩ := hp
    obtain ⟨C, hC⟩ := ha
    refine ⟨B + C, fun w => ?_⟩
    obtain ⟨v, h1, h2⟩ := hll w
    rw [h2]
    simp only [linLoss, logLikTraining, ho, ordLogPart, Except.map, Option.map] at h1
    injection h1 with h1
    injection h1 with h1
    rw [← h1]
    have := hB (linValues X w)
    have := hC (linValues X w)
    exact_mod_cast by linarith
  obtain ⟨B, hB⟩ := hB
  have : Nonempty (Fin d) := ⟨⟨0, hd⟩⟩
  have htop : targetOf volume ll Set.univ = ⊤ := by
    rw [targetOf, withDensity_apply _ MeasurableSet.univ, Measure.restrict_univ, eq_top_iff]
    have h1 : ∫⁻ _ : Fin d → ℝ, EReal.exp (B : EReal) ≤ ∫⁻ w, EReal.exp (ll w) :=
      lintegral_mono fun w => EReal.exp_monotone (hB w)
    refine le_trans (le_of_eq ?_) h1
    rw [lintegral_const, measure_univ_of_isAddLeftInvariant, ENNReal.mul_top]
    simp [EReal.exp_coe, Real.exp_pos]
  refine ⟨htop, fun c hc => ?_⟩
  have h1 := hc.measure_univ
  rw [Measure.smul_apply, htop] at h1
  by_cases h0 : c = 0
  · simp [h0] at h1
  · simp [h0] at h1

/-! ## Examples -/

/-- Independent draws exist for every distribution of the starting point. -/
theorem freshDraws_exist (π : Measure X) [IsProbabilityMeasure π] (ρ : Measure Z) [IsProbabilityMeasure ρ] :
    ∃ (μ : Measure (Nat → X × Z × ℝ)) (x0 : (Nat → X × Z × ℝ) → X) (z : Nat → (Nat → X × Z × ℝ) → Z) (u : Nat → (Nat → X × Z × ℝ) → ℝ),
      IsProbabilityMeasure μ ∧ μ.map x0 = π ∧ FreshDraws μ ρ x0 z u := by
  let m : Measure (X × Z × ℝ) := π.prod (ρ.prod unitUniform)
  let μ : Measure (Nat → X × Z × ℝ) := Measure.infinitePi fun _ => m
  have hev : ∀ i, μ.map (fun ω => ω i) = m := fun i => (measurePreserving_eval_infinitePi (fun _ => m) i).map_eq
  have hme : ∀ i : Nat, Measurable fun ω : Nat → X × Z × ℝ => ω i := fun i => measurable_pi_apply i
  have hind : ProbabilityTheory.iIndepFun (fun (i : Nat) (ω : Nat → X × Z × ℝ) => ω i) μ :=
    ProbabilityTheory.iIndepFun_infinitePi (P := fun _ => m) (X := fun _ x => x) (by fun_prop)
  refine ⟨μ, fun ω => (ω 0).1, fun i ω => (ω (i + 1)).2.1, fun i ω => (ω (i + 1)).2.2, inferInstance, ?_,
    (measurable_fst.comp (hme 0)), fun i => measurable_fst.comp (measurable_snd.comp (hme _)),
    fun i => measurable_snd.comp (measurable_snd.comp (hme _)), fun i => ?_, fun i => ?_⟩
  · have : (fun ω : Nat → X × Z × ℝ => (ω 0).1) = Prod.fst ∘ fun ω => ω 0 := rfl
    rw [this, ← Measure.map_map measurable_fst (hme 0), hev]
    exact Measure.fst_prod
  · have : (fun ω : Nat → X × Z × ℝ => ((ω (i + 1)).2.1, (ω (i + 1)).2.2)) = Prod.snd ∘ fun ω => ω (i + 1) := rfl
    rw [this, ← Measure.map_map measurable_snd (hme _), hev]
    exact Measure.snd_prod
  · have h := hind.indepFun_finset (Finset.range (i + 1)) {i + 1} (by simp) hme
    have f1 : Measurable fun q : (Finset.range (i + 1)) → X × Z × ℝ =>
        ((q ⟨0, by simp⟩).1, fun j : Fin i => ((q ⟨j + 1, by simp⟩).2.1, (q ⟨j + 1, by simp⟩).2.2)) := by fun_prop
    have f2 : Measurable fun q : ({i + 1} : Finset Nat) → X × Z × ℝ => ((q ⟨i + 1, by simp⟩).2.1, (q ⟨i + 1, by simp⟩).2.2) := by fun_prop
    exact h.comp f1 f2

/-- A chain for a normal distribution with normal proposals: its samples have this distribution. -/
example : ∃ (μ : Measure (Nat → ℝ × ℝ × ℝ)) (x0 : (Nat → ℝ × ℝ × ℝ) → ℝ) (z u : Nat → (Nat → ℝ × ℝ × ℝ) → ℝ) (ll : ℝ → EReal),
    IsProbabilityMeasure μ ∧ FreshDraws μ (ProbabilityTheory.gaussianReal 0 1) x0 z u ∧ μ.map x0 = targetOf volume ll ∧
    ∃ S : (Nat → ℝ × ℝ × ℝ) → ℝ, Measurable S ∧ μ.map S = ProbabilityTheory.gaussianReal 0 1 ∧
      ∀ ω, (metropolisHastings ll 200 100 (x0 ω) (fun i x => x + z i ω) (fun i => u i ω))[199]? = some (S ω) := by
  have hpos : ∀ x, 0 < ProbabilityTheory.gaussianPDFReal 0 1 x := fun x => ProbabilityTheory.gaussianPDFReal_pos _ _ _ one_ne_zero
  let ll : ℝ → EReal := fun x => (Real.log (ProbabilityTheory.gaussianPDFReal 0 1 x) : ℝ)
  have ht : targetOf volume ll = ProbabilityTheory.gaussianReal 0 1 := by
    rw [ProbabilityTheory.gaussianReal_of_var_ne_zero _ one_ne_zero, targetOf]
    congr 1
    funext x
    simp only [ll, EReal.exp_coe, Real.exp_log (hpos x)]
    rfl
  have hll : Measurable ll := measurable_coe_real_ereal.comp (Real.measurable_log.comp (ProbabilityTheory.measurable_gaussianPDFReal _ _))
  have hr : ReversibleProposal (volume : Measure ℝ) (ProbabilityTheory.gaussianReal 0 1) fun x z : ℝ => x + z :=
    reversible_add (by rw [ProbabilityTheory.gaussianReal_map_neg, neg_zero]) measurable_id fun _ => rfl
  obtain ⟨μ, x0, z, u, hμ, h0, hf⟩ := freshDraws_exist (ProbabilityTheory.gaussianReal 0 1) (ProbabilityTheory.gaussianReal 0 1)
  refine ⟨μ, x0, z, u, ll, hμ, hf, h0.trans ht.symm, ?_⟩
  obtain ⟨S, hS, hl, hs⟩ := C90_samples hll (fun x => EReal.coe_ne_top _) (by fun_prop) hr hf (h0.trans ht.symm) 200 100 199 (by decide)
  exact ⟨S, hS, hl.trans ht, hs⟩

/-- One pair and one rating of two points. -/
example (P : ProbitSet) (hv : P.absV = 80) (he : P.absEps = 1 / 100000) (X : Matrix (Fin 2) (Fin 3) ℝ) :
    ∃ ll : (Fin 3 → ℝ) → EReal, targetOf volume ll Set.univ = ⊤ := by
  let y : TrainLabels 2 := ⟨some [⟨1, 0, 1⟩], none, some [(1 / 2, 0)]⟩
  have h : ∀ w, ∃ v : ℝ, linLoss P y X w = .ok (some v) := fun w => ⟨_, rfl⟩
  choose v hv' using h
  refine ⟨fun w => (v w : EReal), (C90_linear_false (by norm_num) P (by rw [hv]; norm_num) (by rw [he]; norm_num) (by rw [he]; norm_num) y rfl ?_ X _
    fun w => ⟨v w, hv' w, rfl⟩).1⟩
  intro r hr p hp
  simp only [y, Option.mem_def, Option.some.injEq] at hr
  subst hr
  simp at hp
  subst hp
  norm_num

end Lop.Props
