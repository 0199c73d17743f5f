import Verif.Proofs.ManyQuestions
import Verif.Props.Frequency
import Verif.Proofs.FarAway
import Mathlib.Topology.Instances.Matrix

/-! # C132: from answers to many questions the choice probabilities are learnt -/

namespace Lop.Props

open Lop.Spec Matrix Topology Filter

variable {n d k : Nat}

private lemma mode_regret {sigma : ℝ} {y : List (IPair n)} {K : Matrix (Fin n) (Fin n) ℝ} (hK : K.PosDef) {m : Fin n → ℝ}
    (hm : IsMode sigma y K m) (f : Fin n → ℝ) :
    pairLogLik sigma y f - pairLogLik sigma y m ≤ 1 / 2 * (f ⬝ᵥ (K⁻¹ *ᵥ f)) := by
  have h1 := (isMode_iff hK).1 hm f
  have h2 := hK.inv.posSemidef.dotProduct_mulVec_nonneg m
  simp only [star_trivial] at h2
  linarith

private lemma allPairs_choice {sigma : ℝ} {F : Fin n → ℝ} {u v : Fin n} (h : |(F v - F u) / (Real.sqrt 2 * sigma)| ≤ 30) :
    prefAllPairs sigma F v u = chanceAbove sigma F u v := by
  obtain ⟨h1, h2⟩ := abs_le.1 h
  have e : (F v - F u) * isqrt2sig sigma = (F v - F u) / (Real.sqrt 2 * sigma) := by
    simp only [isqrt2sig]
    rw [mul_comm sigma]
    ring
  rw [prefAllPairs, e, stdNormCdf_of_mem h1 (by linarith), chanceAbove]

private lemma clip_closer {x z : ℝ} (h1 : -30 ≤ z) (h2 : z ≤ 100) : |stdNormCdf x - Phi z| ≤ |Phi x - Phi z| := by
  rw [stdNormCdf]
  rcases le_total x (-30) with h | h
  · have e : npClip (-30 : ℝ) 100 x = -30 := by rw [npClip, max_eq_right h, min_eq_left (by norm_num)]
    have a1 := Phi_strictMono.monotone h
    have a2 := Phi_strictMono.monotone h1
    rw [e, abs_of_nonpos (by linarith), abs_of_nonpos (by linarith)]
    linarith
  · rcases le_total x 100 with h' | h'
    · rw [npClip_of_mem h h']
    · have e : npClip (-30 : ℝ) 100 x = 100 := by rw [npClip, max_eq_left h, min_eq_right h']
      have a1 := Phi_strictMono.monotone h'
      have a2 := Phi_strictMono.monotone h2
      rw [e, abs_of_nonneg (by linarith), abs_of_nonneg (by linarith)]
      linarith

private lemma pointPairs_or {u v : Fin n} (huv : u ≠ v) : (u, v) ∈ pointPairs n ∨ (v, u) ∈ pointPairs n := by
  rcases lt_or_gt_of_ne huv with h | h
  · exact .inl (Finset.mem_filter.2 ⟨Finset.mem_univ _, h⟩)
  · exact .inr (Finset.mem_filter.2 ⟨Finset.mem_univ _, h⟩)

private lemma chi_nonneg (sigma : ℝ) (y : List (IPair n)) (f : Fin n → ℝ) : 0 ≤ chiSquare sigma y f :=
  Finset.sum_nonneg fun e _ => by
    obtain ⟨h0, h1⟩ := chanceAbove_mem sigma f e.1 e.2
    have : 0 < 1 - chanceAbove sigma f e.1 e.2 := by linarith
    positivity

private lemma one_share {sigma : ℝ} {y : List (IPair n)} (hy : ∀ p ∈ y, p.dk = 1 ∨ p.dk = -1) {m f : Fin n → ℝ} {c : ℝ}
    (hc : pairLogLik sigma y f - pairLogLik sigma y m ≤ c) {u v : Fin n} (huv : u ≠ v) :
    2 * timesAsked y u v * (chanceAbove sigma m u v - timesAbove y u v / timesAsked y u v) ^ 2 ≤ c + chiSquare sigma y f := by
  have h := mode_shares hy hc
  have hnn : ∀ e ∈ pointPairs n, 0 ≤ 2 * (timesAsked y e.1 e.2 : ℝ) *
      (chanceAbove sigma m e.1 e.2 - timesAbove y e.1 e.2 / timesAsked y e.1 e.2) ^ 2 := fun e _ => by positivity
  rcases pointPairs_or huv with he | he
  · exact (Finset.single_le_sum hnn he).trans h
  · refine le_trans (le_of_eq ?_) ((Finset.single_le_sum hnn he).trans h)
    simp only
    have e1 : timesAsked y u v = timesAsked y v u := by rw [timesAsked_eq huv, timesAsked_eq huv.symm, add_comm]
    rw [e1, chanceAbove_swap sigma m v u]
    rcases Nat.eq_zero_or_pos (timesAsked y v u) with h0 | h0
    · simp [h0]
    · have h0' : (timesAsked y v u : ℝ) ≠ 0 := by exact_mod_cast h0.ne'
      have e2 : (timesAbove y u v : ℝ) = timesAsked y v u - timesAbove y v u := by
        rw [timesAsked_eq huv.symm]
        push_cast
        ring
      rw [e2, sub_div, div_self h0']
      ring

/-- C132: after any answers to any questions the choice probabilities at the posterior mode are close to the shares of the
answers, if they are those of any values `f`: the squared deviation is at most half the squared norm of `f` plus the χ² of the
answers under `f`, divided by twice the number of answers. -/
theorem C132_shares {sigma : ℝ} {y : List (IPair n)} (hy : ∀ p ∈ y, p.dk = 1 ∨ p.dk = -1)
    {K : Matrix (Fin n) (Fin n) ℝ} (hK : K.PosDef) {m : Fin n → ℝ} (hm : IsMode sigma y K m) (f : Fin n → ℝ) {u v : Fin n}
    (huv : u ≠ v) (ha : 0 < timesAsked y u v) (hr : |(m v - m u) / (Real.sqrt 2 * sigma)| ≤ 30) :
    (prefAllPairs sigma m v u - timesAbove y u v / timesAsked y u v) ^ 2 ≤
      (1 / 2 * (f ⬝ᵥ (K⁻¹ *ᵥ f)) + chiSquare sigma y f) / (2 * timesAsked y u v) := by
  have ha' : (0 : ℝ) < timesAsked y u v := by exact_mod_cast ha
  have h := one_share hy (mode_regret hK hm f) huv
  rw [allPairs_choice hr, le_div_iff₀ (by positivity)]
  linarith

/-- C132, linear model: weights of largest likelihood do as well as any others, and there is no prior to pay for. -/
theorem C132_linear {sigma : ℝ} {y : List (IPair n)} (hy : ∀ p ∈ y, p.dk = 1 ∨ p.dk = -1)
    {X : Matrix (Fin n) (Fin d) ℝ} {w : Fin d → ℝ} (hw : ∀ w', pairLogLik sigma y (X *ᵥ w') ≤ pairLogLik sigma y (X *ᵥ w))
    (w0 : Fin d → ℝ) {u v : Fin n} (huv : u ≠ v) (ha : 0 < timesAsked y u v)
    (hr : |((X *ᵥ w) v - (X *ᵥ w) u) / (Real.sqrt 2 * sigma)| ≤ 30) :
    (prefAllPairs sigma (X *ᵥ w) v u - timesAbove y u v / timesAsked y u v) ^ 2 ≤
      chiSquare sigma y (X *ᵥ w0) / (2 * timesAsked y u v) := by
  have ha' : (0 : ℝ) < timesAsked y u v := by exact_mod_cast ha
  have h := one_share hy (sub_nonpos.2 (hw w0)) huv
  rw [allPairs_choice hr, le_div_iff₀ (by positivity)]
  linarith

/-- C132: what `find_mode` stores, up to its tolerance. -/
theorem C132_stored (o : ModeOpts) (ho : o.normalizeGp = false) (P : ProbitSet) (hs : 0 < P.sigma) {u v : Fin (n + 1)}
    (huv : u ≠ v) {y : List (IPair (n + 1))} (hy : ∀ p ∈ y, p.dk = 1 ∨ p.dk = -1) (ha : 0 < timesAsked y u v)
    {K : Matrix (Fin (n + 1)) (Fin (n + 1)) ℝ} (hK : K.PosDef)
    {invert : Matrix (Fin (n + 1)) (Fin (n + 1)) ℝ → Option (Matrix (Fin (n + 1)) (Fin (n + 1)) ℝ)}
    (hinv : InvertsInvertible invert) (F0 F : Fin (n + 1) → ℝ) (k : Nat) (D : Option (Derivs (n + 1)))
    (h : findMode o P (onlyPairs y) K invert F0 = .ok ⟨some F, k, D⟩) (hk : k ≤ o.maxloops)
    (hr : ∀ G, ‖F - G‖ ≤ o.deltaF → PairsInRange P.sigma y G) (hF : |(F v - F u) / (Real.sqrt 2 * P.sigma)| ≤ 30)
    (f : Fin (n + 1) → ℝ) :
    |prefAllPairs P.sigma F v u - timesAbove y u v / timesAsked y u v| ≤
      Real.sqrt ((1 / 2 * (f ⬝ᵥ (K⁻¹ *ᵥ f)) + chiSquare P.sigma y f) / (2 * timesAsked y u v)) +
      0.4 * ((modeErrorFactor P.sigma y K u + modeErrorFactor P.sigma y K v) * o.deltaF / (Real.sqrt 2 * P.sigma)) := by
  obtain ⟨m, hm, -⟩ := C97_mode_unique P.sigma y hK
  have hc := C97_converged o ho P hs.ne' y hK hinv F0 F k D h hk hr m hm
  have ha' : (0 : ℝ) < timesAsked y u v := by exact_mod_cast ha
  have h1 : |chanceAbove P.sigma m u v - timesAbove y u v / timesAsked y u v| ≤
      Real.sqrt ((1 / 2 * (f ⬝ᵥ (K⁻¹ *ᵥ f)) + chiSquare P.sigma y f) / (2 * timesAsked y u v)) := by
    refine Real.abs_le_sqrt ?_
    rw [le_div_iff₀ (by positivity)]
    linarith [one_share hy (mode_regret hK hm f) huv]
  have hp : 0 < Real.sqrt 2 * P.sigma := by positivity
  have h2 := Phi_lip ((F v - F u) / (Real.sqrt 2 * P.sigma)) ((m v - m u) / (Real.sqrt 2 * P.sigma))
  have h3 : |(F v - F u) / (Real.sqrt 2 * P.sigma) - (m v - m u) / (Real.sqrt 2 * P.sigma)| ≤
      (modeErrorFactor P.sigma y K u + modeErrorFactor P.sigma y K v) * o.deltaF / (Real.sqrt 2 * P.sigma) := by
    rw [← sub_div, abs_div, abs_of_pos hp]
    refine div_le_div_of_nonneg_right ?_ hp.le
    have a1 := abs_le.1 (hc u)
    have a2 := abs_le.1 (hc v)
    rw [abs_le]
    constructor <;> linarith [a1.1, a1.2, a2.1, a2.2]
  rw [allPairs_choice hF]
  calc |chanceAbove P.sigma F u v - timesAbove y u v / timesAsked y u v|
      ≤ |chanceAbove P.sigma F u v - chanceAbove P.sigma m u v| +
        |chanceAbove P.sigma m u v - timesAbove y u v / timesAsked y u v| := abs_sub_le _ _ _
    _ ≤ 0.4 * ((modeErrorFactor P.sigma y K u + modeErrorFactor P.sigma y K v) * o.deltaF / (Real.sqrt 2 * P.sigma)) +
        Real.sqrt ((1 / 2 * (f ⬝ᵥ (K⁻¹ *ᵥ f)) + chiSquare P.sigma y f) / (2 * timesAsked y u v)) :=
      add_le_add (h2.trans (mul_le_mul_of_nonneg_left h3 (by norm_num))) h1
    _ = _ := add_comm _ _

/-- C132: the expected squared error. If someone with the values `f` answers the questions at random as the probit says, then
the squared differences between the choice probabilities at the mode and theirs, added up over all questions, are on average at
most half the squared norm of `f` plus 3/2 for every different question – no matter how often each is repeated. -/
theorem C132_expected {sigma : ℝ} (qs : Fin k → Fin n × Fin n) (f : Fin n → ℝ) (hf : QuestionsInRange sigma qs f)
    {K : Matrix (Fin n) (Fin n) ℝ} (hK : K.PosDef) {m : (Fin k → Bool) → Fin n → ℝ}
    (hm : ∀ a, IsMode sigma (answerLabels qs a) K (m a)) :
    ∑ a, (prefLikelihood sigma (answerLabels qs a) f).prod *
      ∑ i, (prefAllPairs sigma (m a) (qs i).2 (qs i).1 - prefAllPairs sigma f (qs i).2 (qs i).1) ^ 2 ≤
    1 / 2 * (f ⬝ᵥ (K⁻¹ *ᵥ f)) + 3 / 2 * differentQuestions qs := by
  set c := 1 / 2 * (f ⬝ᵥ (K⁻¹ *ᵥ f))
  have hsgn : ∀ a : Fin k → Bool, ∀ p ∈ answerLabels qs a, p.dk = 1 ∨ p.dk = -1 := by
    intro a p hp
    obtain ⟨i, rfl⟩ := (List.mem_ofFn' _ _).1 hp
    simp only
    split_ifs <;> simp
  have key : ∀ a, ∑ i, (prefAllPairs sigma (m a) (qs i).2 (qs i).1 - prefAllPairs sigma f (qs i).2 (qs i).1) ^ 2 ≤
      c + 3 / 2 * chiSquare sigma (answerLabels qs a) f := by
    intro a
    have h1 : ∑ i, (prefAllPairs sigma (m a) (qs i).2 (qs i).1 - prefAllPairs sigma f (qs i).2 (qs i).1) ^ 2 ≤
        ∑ i, (chanceAbove sigma (m a) (qs i).1 (qs i).2 - chanceAbove sigma f (qs i).1 (qs i).2) ^ 2 := by
      refine Finset.sum_le_sum fun i _ => sq_le_sq.2 ?_
      rw [allPairs_choice (hf i)]
      have e : ((m a) (qs i).2 - (m a) (qs i).1) * isqrt2sig sigma =
          ((m a) (qs i).2 - (m a) (qs i).1) / (Real.sqrt 2 * sigma) := by
        simp only [isqrt2sig]
        rw [mul_comm sigma]
        ring
      rw [prefAllPairs, e]
      obtain ⟨b1, b2⟩ := abs_le.1 (hf i)
      exact clip_closer b1 (by linarith)
    have h2 : ∑ i, (chanceAbove sigma (m a) (qs i).1 (qs i).2 - chanceAbove sigma f (qs i).1 (qs i).2) ^ 2 =
        ((answerLabels qs a).map fun p => (chanceAbove sigma (m a) (loserOf p) (winnerOf p) -
          chanceAbove sigma f (loserOf p) (winnerOf p)) ^ 2).sum := by
      rw [answerLabels, List.map_ofFn, List.sum_ofFn]
      refine Finset.sum_congr rfl fun i _ => ?_
      cases hb : a i
      · simp only [Function.comp, loserOf, winnerOf, hb]
        norm_num
        rw [chanceAbove_swap sigma (m a) (qs i).1, chanceAbove_swap sigma f (qs i).1]
        ring
      · simp [Function.comp, loserOf, winnerOf, hb]
    rw [sum_by_pairs (fun u v => (chanceAbove sigma (m a) u v - chanceAbove sigma f u v) ^ 2)
      (fun u => by simp [chanceAbove]) _ (hsgn a)] at h2
    refine h1.trans (h2.le.trans ?_)
    have h3 := mode_shares (hsgn a) (mode_regret hK (hm a) f)
    have h4 : ∑ e ∈ pointPairs n, 2 * timesAsked (answerLabels qs a) e.1 e.2 *
          (timesAbove (answerLabels qs a) e.1 e.2 / timesAsked (answerLabels qs a) e.1 e.2 -
            chanceAbove sigma f e.1 e.2) ^ 2 ≤ 1 / 2 * chiSquare sigma (answerLabels qs a) f := by
      rw [chiSquare, Finset.mul_sum]
      refine Finset.sum_le_sum fun e _ => ?_
      obtain ⟨r0, r1⟩ := chanceAbove_mem sigma f e.1 e.2
      set r := chanceAbove sigma f e.1 e.2
      set A : ℝ := (timesAbove (answerLabels qs a) e.1 e.2 : ℝ)
      rcases Nat.eq_zero_or_pos (timesAsked (answerLabels qs a) e.1 e.2) with h0 | h0
      · simp [h0]
      · have h0' : (0 : ℝ) < timesAsked (answerLabels qs a) e.1 e.2 := by exact_mod_cast h0
        set N : ℝ := (timesAsked (answerLabels qs a) e.1 e.2 : ℝ)
        have hr1 : 0 < 1 - r := by linarith
        have h5 : r * (1 - r) ≤ 1 / 4 := by nlinarith [sq_nonneg (2 * r - 1)]
        have e1 : 2 * N * (A / N - r) ^ 2 = 1 / 2 * ((A - N * r) ^ 2 / (N * (1 / 4))) := by
          field_simp
          ring
        rw [e1]
        gcongr
    refine le_trans ?_ ((add_le_add h3 h4).trans (le_of_eq (show _ = c + 3 / 2 * chiSquare sigma (answerLabels qs a) f by
      simp only [c]; ring)))
    rw [← Finset.sum_add_distrib]
    refine Finset.sum_le_sum fun e he => ?_
    have hne : e.1 ≠ e.2 := (Finset.mem_filter.1 he).2.ne
    rw [chanceAbove_swap sigma (m a) e.1 e.2, chanceAbove_swap sigma f e.1 e.2, timesAsked_eq hne]
    set x := chanceAbove sigma (m a) e.1 e.2
    set r := chanceAbove sigma f e.1 e.2
    push_cast
    set A : ℝ := (timesAbove (answerLabels qs a) e.1 e.2 : ℝ) with hA
    set B : ℝ := (timesAbove (answerLabels qs a) e.2 e.1 : ℝ) with hB
    have hN : 0 ≤ A + B := by positivity
    have e1 : A * (x - r) ^ 2 + B * (1 - x - (1 - r)) ^ 2 = (A + B) * (x - r) ^ 2 := by ring
    rw [e1]
    set q := A / (A + B)
    nlinarith [mul_nonneg hN (sq_nonneg ((x - q) - (q - r)))]
  have htot : ∑ a, (prefLikelihood sigma (answerLabels qs a) f).prod = 1 := by
    rw [← expect_total _ fun i => answers_one (sigma := sigma) (qs := qs) (F := f) i]
    exact Finset.sum_congr rfl fun a _ => answers_likelihood hf a
  have hexp := chi_expected (sigma := sigma) (qs := qs) (F := f)
  calc _ ≤ ∑ a, (prefLikelihood sigma (answerLabels qs a) f).prod * (c + 3 / 2 * chiSquare sigma (answerLabels qs a) f) := by
        refine Finset.sum_le_sum fun a _ => mul_le_mul_of_nonneg_left (key a) ?_
        rw [answers_likelihood hf]
        exact Finset.prod_nonneg fun i _ => (Phi_pos _).le
    _ = c * ∑ a, (prefLikelihood sigma (answerLabels qs a) f).prod +
        3 / 2 * ∑ a, (∏ i, Phi (ansZ sigma qs f i (a i))) * chiSquare sigma (answerLabels qs a) f := by
        rw [Finset.mul_sum, Finset.mul_sum, ← Finset.sum_add_distrib]
        exact Finset.sum_congr rfl fun a _ => by rw [answers_likelihood hf]; ring
    _ ≤ _ := by
        rw [htot, mul_one]
        linarith

private lemma Phi_tendsto_inv {z : Nat → ℝ} {x : ℝ} (h : Tendsto (fun k => Phi (z k)) atTop (𝓝 (Phi x))) :
    Tendsto z atTop (𝓝 x) := by
  refine tendsto_order.2 ⟨fun l hl => ?_, fun l hl => ?_⟩
  · filter_upwards [h.eventually_const_lt (Phi_strictMono hl)] with k hk
    exact Phi_strictMono.lt_iff_lt.1 hk
  · filter_upwards [h.eventually_lt_const (Phi_strictMono hl)] with k hk
    exact Phi_strictMono.lt_iff_lt.1 hk

/-- C132: in the long run. If the answers agree more and more with the choice probabilities of the values `f` – for every two
points the surplus of answers is negligible compared with their number – then for every two points that take a fixed share of
the questions the choice probability and the difference of the values at the mode tend to those of `f`. -/
theorem C132_limit {sigma : ℝ} (hs : 0 < sigma) {y : Nat → List (IPair n)} (hy : ∀ k, ∀ p ∈ y k, p.dk = 1 ∨ p.dk = -1)
    (hN : Tendsto (fun k => (y k).length) atTop atTop) (f : Fin n → ℝ)
    (hq : ∀ u v, u ≠ v → Tendsto (fun k => (timesAbove (y k) u v - timesAsked (y k) u v *
      Phi ((f v - f u) / (Real.sqrt 2 * sigma))) / (y k).length) atTop (𝓝 0))
    {K : Matrix (Fin n) (Fin n) ℝ} (hK : K.PosDef) {m : Nat → Fin n → ℝ} (hm : ∀ k, IsMode sigma (y k) K (m k))
    {u v : Fin n} (huv : u ≠ v) {rho : ℝ} (hrho : 0 < rho) (ha : ∀ᶠ k in atTop, rho * (y k).length ≤ timesAsked (y k) u v) :
    Tendsto (fun k => Phi ((m k v - m k u) / (Real.sqrt 2 * sigma))) atTop (𝓝 (Phi ((f v - f u) / (Real.sqrt 2 * sigma)))) ∧
    Tendsto (fun k => m k v - m k u) atTop (𝓝 (f v - f u)) := by
  have hp : 0 < Real.sqrt 2 * sigma := by positivity
  set c := 1 / 2 * (f ⬝ᵥ (K⁻¹ *ᵥ f))
  have hNr : Tendsto (fun k => ((y k).length : ℝ)) atTop atTop := tendsto_natCast_atTop_atTop.comp hN
  -- the deviation from the share
  have hchi : ∀ k, chiSquare sigma (y k) f ≤ ∑ e ∈ pointPairs n, |(timesAbove (y k) e.1 e.2 - timesAsked (y k) e.1 e.2 *
      chanceAbove sigma f e.1 e.2 : ℝ)| / (chanceAbove sigma f e.1 e.2 * (1 - chanceAbove sigma f e.1 e.2)) := by
    intro k
    refine Finset.sum_le_sum fun e he => ?_
    have hne : e.1 ≠ e.2 := (Finset.mem_filter.1 he).2.ne
    obtain ⟨r0, r1⟩ := chanceAbove_mem sigma f e.1 e.2
    have h1r : 0 < 1 - chanceAbove sigma f e.1 e.2 := by linarith
    rw [timesAsked_eq hne]
    push_cast
    set r := chanceAbove sigma f e.1 e.2
    set A : ℝ := (timesAbove (y k) e.1 e.2 : ℝ) with hA
    set B : ℝ := (timesAbove (y k) e.2 e.1 : ℝ) with hB
    have hA0 : 0 ≤ A := by positivity
    have hB0 : 0 ≤ B := by positivity
    rcases (add_nonneg hA0 hB0).eq_or_lt with h0 | h0
    · rw [← h0]
      simp only [zero_mul, div_zero]
      positivity
    · rw [div_le_div_iff₀ (by positivity) (by positivity), ← sq_abs]
      have hle : |A - (A + B) * r| ≤ A + B := by
        rw [abs_le]
        constructor <;> nlinarith
      have h2 : |A - (A + B) * r| ^ 2 ≤ |A - (A + B) * r| * (A + B) := by
        rw [sq]
        exact mul_le_mul_of_nonneg_left hle (abs_nonneg _)
      calc |A - (A + B) * r| ^ 2 * (r * (1 - r)) ≤ |A - (A + B) * r| * (A + B) * (r * (1 - r)) :=
            mul_le_mul_of_nonneg_right h2 (by positivity)
        _ = _ := by ring
  have hlim : Tendsto (fun k => (c + ∑ e ∈ pointPairs n, |(timesAbove (y k) e.1 e.2 - timesAsked (y k) e.1 e.2 *
      chanceAbove sigma f e.1 e.2 : ℝ)| / (chanceAbove sigma f e.1 e.2 * (1 - chanceAbove sigma f e.1 e.2))) /
      ((y k).length)) atTop (𝓝 0) := by
    have h1 : Tendsto (fun k => c / ((y k).length : ℝ)) atTop (𝓝 0) := hNr.const_div_atTop c
    have h2 : Tendsto (fun k => ∑ e ∈ pointPairs n, |(timesAbove (y k) e.1 e.2 - timesAsked (y k) e.1 e.2 *
      chanceAbove sigma f e.1 e.2 : ℝ) / (y k).length| / (chanceAbove sigma f e.1 e.2 * (1 - chanceAbove sigma f e.1 e.2)))
        atTop (𝓝 (∑ e ∈ pointPairs n, |(0 : ℝ)| / (chanceAbove sigma f e.1 e.2 * (1 - chanceAbove sigma f e.1 e.2)))) :=
      tendsto_finsetSum _ fun e he => ((hq e.1 e.2 (Finset.mem_filter.1 he).2.ne).abs.div_const _)
    simp only [abs_zero, zero_div, Finset.sum_const_zero] at h2
    have h3 := h1.add h2
    rw [add_zero] at h3
    refine h3.congr fun k => ?_
    rw [add_div, Finset.sum_div]
    congr 1
    refine Finset.sum_congr rfl fun e _ => ?_
    rw [abs_div, abs_of_nonneg (show (0 : ℝ) ≤ (y k).length by positivity), div_right_comm]
  have hdev : Tendsto (fun k => (chanceAbove sigma (m k) u v - timesAbove (y k) u v / timesAsked (y k) u v) ^ 2)
      atTop (𝓝 0) := by
    have h5 := hlim.const_mul (1 / (2 * rho))
    rw [mul_zero] at h5
    refine squeeze_zero' (.of_forall fun k => sq_nonneg _) ?_ h5
    filter_upwards [ha, hN.eventually_ge_atTop 1] with k hk hk1
    have hk1' : (0 : ℝ) < (y k).length := by exact_mod_cast hk1
    have h6 : _ ≤ c + _ := one_share (hy k) (mode_regret hK (hm k) f) huv
    have h7 := hchi k
    rw [← mul_div_assoc, le_div_iff₀ hk1', one_div, inv_mul_eq_div, le_div_iff₀ (by positivity)]
    have h8 := mul_le_mul_of_nonneg_right hk
      (sq_nonneg (chanceAbove sigma (m k) u v - timesAbove (y k) u v / timesAsked (y k) u v))
    refine le_trans (le_of_eq ?_) ((mul_le_mul_of_nonneg_left h8 zero_le_two).trans (le_trans (le_of_eq ?_)
      (h6.trans (add_le_add_right h7 c))))
    · ring
    · ring
  have hdev' : Tendsto (fun k => chanceAbove sigma (m k) u v - timesAbove (y k) u v / timesAsked (y k) u v) atTop (𝓝 0) := by
    have := (Real.continuous_sqrt.tendsto 0).comp hdev
    simp only [Real.sqrt_zero, Function.comp_def, Real.sqrt_sq_eq_abs] at this
    exact (tendsto_zero_iff_abs_tendsto_zero _).2 this
  -- the share
  have hshare : Tendsto (fun k => (timesAbove (y k) u v / timesAsked (y k) u v - chanceAbove sigma f u v : ℝ)) atTop (𝓝 0) := by
    have h5 := ((hq u v huv).abs).const_mul (1 / rho)
    rw [abs_zero, mul_zero] at h5
    refine squeeze_zero_norm' ?_ h5
    filter_upwards [ha, hN.eventually_ge_atTop 1] with k hk hk1
    have hk1' : (0 : ℝ) < (y k).length := by exact_mod_cast hk1
    have hpos : 0 < rho * (y k).length := by positivity
    have ht : (0 : ℝ) < timesAsked (y k) u v := hpos.trans_le hk
    have e : (timesAbove (y k) u v / timesAsked (y k) u v - chanceAbove sigma f u v : ℝ) =
        (timesAbove (y k) u v - timesAsked (y k) u v * chanceAbove sigma f u v) / timesAsked (y k) u v := by
      field_simp
    have e2 : 1 / rho * |(timesAbove (y k) u v - timesAsked (y k) u v * Phi ((f v - f u) / (Real.sqrt 2 * sigma)) : ℝ) /
        (y k).length| = |(timesAbove (y k) u v - timesAsked (y k) u v * chanceAbove sigma f u v : ℝ)| /
          (rho * (y k).length) := by
      rw [abs_div, abs_of_pos hk1', chanceAbove]
      field_simp
    rw [e2, Real.norm_eq_abs, e, abs_div, abs_of_pos ht]
    exact div_le_div_of_nonneg_left (abs_nonneg _) hpos hk
  have hmain : Tendsto (fun k => chanceAbove sigma (m k) u v) atTop (𝓝 (chanceAbove sigma f u v)) := by
    have h9 := (hdev'.add hshare).add_const (chanceAbove sigma f u v)
    simp only [add_zero, zero_add] at h9
    refine h9.congr fun k => ?_
    ring
  refine ⟨hmain, ?_⟩
  have h10 := (Phi_tendsto_inv hmain).mul_const (Real.sqrt 2 * sigma)
  simp only [div_mul_cancel₀ _ hp.ne'] at h10
  exact h10

/-- C132: if the frequent questions connect all points, the whole mode converges – to `f` moved by the constant the prior likes
best, which no comparison can tell – and in the end all points are ranked as `f` ranks them, compared or not. -/
theorem C132_identified {sigma : ℝ} (hs : 0 < sigma) {y : Nat → List (IPair n)} (hy : ∀ k, ∀ p ∈ y k, p.dk = 1 ∨ p.dk = -1)
    (hN : Tendsto (fun k => (y k).length) atTop atTop) (f : Fin n → ℝ)
    (hq : ∀ u v, u ≠ v → Tendsto (fun k => (timesAbove (y k) u v - timesAsked (y k) u v *
      Phi ((f v - f u) / (Real.sqrt 2 * sigma))) / (y k).length) atTop (𝓝 0))
    (hconn : ∀ u v, Relation.EqvGen (fun u v => u ≠ v ∧ ∃ rho : ℝ, 0 < rho ∧
      ∀ᶠ k in atTop, rho * (y k).length ≤ timesAsked (y k) u v) u v)
    {K : Matrix (Fin n) (Fin n) ℝ} (hK : K.PosDef) {m : Nat → Fin n → ℝ} (hm : ∀ k, IsMode sigma (y k) K (m k)) :
    Tendsto m atTop (𝓝 fun i => f i - (1 ⬝ᵥ (K⁻¹ *ᵥ f)) / (1 ⬝ᵥ (K⁻¹ *ᵥ 1))) ∧
    ∀ᶠ k in atTop, ∀ u v, f u < f v → m k u < m k v := by
  have hdiff : ∀ u v, Tendsto (fun k => m k v - m k u) atTop (𝓝 (f v - f u)) := by
    intro u v
    induction hconn u v with
    | rel u v h =>
      obtain ⟨huv, rho, hrho, ha⟩ := h
      exact (C132_limit hs hy hN f hq hK hm huv hrho ha).2
    | refl u => simp
    | symm u v _ ih =>
      have := ih.neg
      simpa only [neg_sub] using this
    | trans u v w _ _ ih1 ih2 =>
      have := ih2.add ih1
      simpa only [sub_add_sub_cancel] using this
  refine ⟨tendsto_pi_nhds.2 fun i => ?_, ?_⟩
  · have hsym : (K⁻¹)ᵀ = K⁻¹ := inv_symm hK
    have h1 : (1 : Fin n → ℝ) ≠ 0 := fun h => one_ne_zero (congrFun h i)
    have hS := hK.inv.dotProduct_mulVec_pos h1
    simp only [star_trivial] at hS
    set S := (1 : Fin n → ℝ) ⬝ᵥ (K⁻¹ *ᵥ 1) with hSd
    set a := K⁻¹ *ᵥ (1 : Fin n → ℝ) with had
    have hdot : ∀ g : Fin n → ℝ, (1 : Fin n → ℝ) ⬝ᵥ (K⁻¹ *ᵥ g) = a ⬝ᵥ g := by
      intro g
      rw [dotProduct_mulVec, ← mulVec_transpose, hsym]
    have hsum : ∑ j, a j = S := by
      rw [hSd, dotProduct]
      simp
    have hzero : ∀ k, a ⬝ᵥ m k = 0 := by
      intro k
      have hu : IsUnit K.det := (Matrix.isUnit_iff_isUnit_det _).1 hK.isUnit
      have h2 := (isMode_iff_fixed hK).1 (hm k)
      rw [← hdot]
      conv_lhs => rw [h2]
      rw [mulVec_mulVec, nonsing_inv_mul _ hu, one_mulVec, dot_pairGradV]
      simp
    have e : ∀ g : Fin n → ℝ, ∑ j, a j * (g i - g j) = S * g i - a ⬝ᵥ g := by
      intro g
      rw [← hsum, dotProduct, Finset.sum_mul, ← Finset.sum_sub_distrib]
      exact Finset.sum_congr rfl fun j _ => by ring
    have hl : Tendsto (fun k => ∑ j, a j * (m k i - m k j)) atTop (𝓝 (∑ j, a j * (f i - f j))) :=
      tendsto_finsetSum _ fun j _ => (hdiff j i).const_mul (a j)
    rw [e] at hl
    have hl2 := hl.div_const S
    rw [hdot f]
    have e2 : (S * f i - a ⬝ᵥ f) / S = f i - a ⬝ᵥ f / S := by
      rw [sub_div, mul_div_cancel_left₀ _ hS.ne']
    rw [e2] at hl2
    refine hl2.congr fun k => ?_
    rw [e, hzero, sub_zero, mul_div_cancel_left₀ _ hS.ne']
  · refine eventually_all.2 fun u => eventually_all.2 fun v => ?_
    by_cases huv : f u < f v
    · filter_upwards [(hdiff u v).eventually_const_lt (sub_pos.2 huv)] with k hk _
      linarith
    · exact .of_forall fun k h => absurd h huv

/-- C132: … and so do the means that `predict` returns at any points. -/
theorem C132_predict {d t : Nat} (kern : KExpr ℝ (Pt d)) (Y : Fin n → Pt d) (X : Fin t → Pt d) {K : Matrix (Fin n) (Fin n) ℝ}
    {m : Nat → Fin n → ℝ} {g : Fin n → ℝ} (hm : Tendsto m atTop (𝓝 g)) {W : Nat → Matrix (Fin n) (Fin n) ℝ}
    {invert : Matrix (Fin n) (Fin n) ℝ → Option (Matrix (Fin n) (Fin n) ℝ)} {p : Nat → GPPred t}
    (hp : ∀ k, prefGpPredict (kcov kern) Y K (W k) (m k) invert X = .ok (p k)) :
    ∃ Ks, kern.cov X Y = .ok Ks ∧ Tendsto (fun k => (p k).mu) atTop (𝓝 (Ks *ᵥ (K⁻¹ *ᵥ g))) := by
  cases hX : kern.cov X Y with
  | error e =>
    have := hp 0
    simp [prefGpPredict, kcov, hX, Bind.bind, Except.bind] at this
  | ok Ks =>
    refine ⟨Ks, rfl, ?_⟩
    have hmu : ∀ k, (p k).mu = Ks *ᵥ (K⁻¹ *ᵥ m k) := by
      intro k
      have h := hp k
      simp only [prefGpPredict, kcov, hX, Bind.bind, Except.bind] at h
      cases hXX : kern.cov X X with
      | error e => simp [hXX] at h
      | ok Kss =>
        simp only [hXX, laplacePredict] at h
        split_ifs at h
        cases hi : invert (1 + W k * K) with
        | none => simp [hi] at h
        | some tmp =>
          simp only [hi, Except.ok.injEq] at h
          rw [← h]
    simp_rw [hmu]
    have hc : Continuous fun v : Fin n → ℝ => Ks *ᵥ (K⁻¹ *ᵥ v) :=
      continuous_const.matrix_mulVec (continuous_const.matrix_mulVec continuous_id)
    exact (hc.tendsto g).comp hm

/-- The hypotheses of `C132_shares` and `C132_linear`: three points, two questions, one of them asked twice. -/
example : (∀ p ∈ [(⟨1, 0, 1⟩ : IPair 3), ⟨-1, 1, 0⟩, ⟨-1, 1, 2⟩], p.dk = 1 ∨ p.dk = -1) ∧
    timesAsked [(⟨1, 0, 1⟩ : IPair 3), ⟨-1, 1, 0⟩, ⟨-1, 1, 2⟩] 0 1 = 2 ∧
    timesAbove [(⟨1, 0, 1⟩ : IPair 3), ⟨-1, 1, 0⟩, ⟨-1, 1, 2⟩] 0 1 = 2 ∧
    timesAbove [(⟨1, 0, 1⟩ : IPair 3), ⟨-1, 1, 0⟩, ⟨-1, 1, 2⟩] 2 1 = 1 := by decide

/-- … and modes exist for all answers, as `C132_expected` assumes; two of the three questions are the same. -/
example {K : Matrix (Fin 3) (Fin 3) ℝ} (hK : K.PosDef) :
    (∃ m : (Fin 3 → Bool) → Fin 3 → ℝ, ∀ a, IsMode 1 (answerLabels ![(0, 1), (1, 0), (1, 2)] a) K (m a)) ∧
    QuestionsInRange 1 ![(0, 1), (1, 0), (1, 2)] (0 : Fin 3 → ℝ) ∧
    differentQuestions (n := 3) ![(0, 1), (1, 0), (1, 2)] = 2 :=
  ⟨⟨fun a => (C97_mode_unique 1 _ hK).choose, fun a => (C97_mode_unique 1 _ hK).choose_spec.1⟩,
    fun i => by simp, by decide⟩

private lemma countP_cycle {α : Type} (P : α → Bool) (l : List α) (k : Nat) :
    ((List.replicate k l).flatten.countP P) = k * l.countP P := by
  rw [List.countP_flatten, List.map_replicate, List.sum_replicate, smul_eq_mul]

/-- The hypothesis of `C132_predict`: with a positive definite `K` all predictions succeed. -/
example {d t : Nat} (kern : KExpr ℝ (Pt d)) (Y : Fin n → Pt d) (X : Fin (t + 1) → Pt d) {K : Matrix (Fin n) (Fin n) ℝ}
    (hK : K.PosDef) (W : Nat → Matrix (Fin n) (Fin n) ℝ) (m : Nat → Fin n → ℝ) :
    ∃ p : Nat → GPPred (t + 1), ∀ k, prefGpPredict (kcov kern) Y K (W k) (m k) (fun A => some A⁻¹) X = .ok (p k) := by
  obtain ⟨A, hA⟩ := cov_returns kern X X (Nat.succ_pos t)
  obtain ⟨B, hB⟩ := cov_returns kern X Y (Nat.succ_pos t)
  refine ⟨fun k => ⟨B *ᵥ (K⁻¹ *ᵥ m k), fun i => max 0 ((A - B * (1 + W k * K)⁻¹ * (W k * Bᵀ)) i i),
    A - B * (1 + W k * K)⁻¹ * (W k * Bᵀ)⟩, fun k => ?_⟩
  simp only [prefGpPredict, kcov, hA, hB, Bind.bind, Except.bind, laplacePredict, if_pos hK]

/-- The questions of the next example connect both points, as `C132_identified` assumes. -/
example {P : Fin 2 → Fin 2 → Prop} (h : P 0 1) : ∀ u v, Relation.EqvGen P u v := by
  intro u v
  fin_cases u <;> fin_cases v
  · exact .refl _
  · exact .rel _ _ h
  · exact .symm _ _ (.rel _ _ h)
  · exact .refl _

/-- The hypotheses of `C132_limit`: two points are compared, each is named half of the time, as values 0 make one
expect. -/
example : let y := fun k => (List.replicate (k + 1) [(⟨1, 0, 1⟩ : IPair 2), ⟨-1, 0, 1⟩]).flatten
    (∀ k, ∀ p ∈ y k, p.dk = 1 ∨ p.dk = -1) ∧ Tendsto (fun k => (y k).length) atTop atTop ∧
    (∀ u v, u ≠ v → Tendsto (fun k => (timesAbove (y k) u v - timesAsked (y k) u v *
      Phi (((0 : Fin 2 → ℝ) v - (0 : Fin 2 → ℝ) u) / (Real.sqrt 2 * 1))) / (y k).length) atTop (𝓝 0)) ∧
    ∀ᶠ k in atTop, (1 : ℝ) * (y k).length ≤ timesAsked (y k) 0 1 := by
  intro y
  have hlen : ∀ k, (y k).length = (k + 1) * 2 := fun k => by simp [y]
  have hab : ∀ k u v, timesAbove (y k) u v = (k + 1) * timesAbove [(⟨1, 0, 1⟩ : IPair 2), ⟨-1, 0, 1⟩] u v :=
    fun k u v => countP_cycle _ _ _
  have has : ∀ k u v, timesAsked (y k) u v = (k + 1) * timesAsked [(⟨1, 0, 1⟩ : IPair 2), ⟨-1, 0, 1⟩] u v :=
    fun k u v => countP_cycle _ _ _
  refine ⟨fun k p hp => ?_, ?_, fun u v huv => ?_, .of_forall fun k => ?_⟩
  · obtain ⟨l, h1, h2⟩ := List.mem_flatten.1 hp
    rw [List.eq_of_mem_replicate h1] at h2
    simp only [List.mem_cons, List.not_mem_nil, or_false] at h2
    rcases h2 with rfl | rfl <;> simp
  · simp_rw [hlen]
    exact tendsto_atTop_mono (fun k => show k ≤ (k + 1) * 2 by omega) tendsto_id
  · have e : ∀ k : Nat, (timesAbove (y k) u v - timesAsked (y k) u v *
        Phi (((0 : Fin 2 → ℝ) v - (0 : Fin 2 → ℝ) u) / (Real.sqrt 2 * 1))) / ((y k).length : ℝ) = 0 := by
      intro k
      have h1 : timesAbove [(⟨1, 0, 1⟩ : IPair 2), ⟨-1, 0, 1⟩] u v = 1 := by revert huv; revert u v; decide
      have h2 : timesAsked [(⟨1, 0, 1⟩ : IPair 2), ⟨-1, 0, 1⟩] u v = 2 := by revert huv; revert u v; decide
      rw [hab, has, h1, h2]
      simp only [Pi.zero_apply, sub_self, zero_div, Phi_zero]
      push_cast
      ring_nf
    simp_rw [e]
    exact tendsto_const_nhds
  · have h2 : timesAsked [(⟨1, 0, 1⟩ : IPair 2), ⟨-1, 0, 1⟩] 0 1 = 2 := by decide
    rw [hlen, has, h2, one_mul]

end Lop.Props
