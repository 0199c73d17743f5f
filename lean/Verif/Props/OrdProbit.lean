import Verif.Proofs.OrdProbit
import Mathlib.Analysis.Real.Pi.Bounds
import Mathlib.Analysis.Complex.ExponentialBounds
import Mathlib.Tactic.NormNum

/-! # Properties C39, C40, C42 (ordinal part) – the ordinal probit -/

namespace Lop.Props

open Lop.Spec

variable {m : Nat}

/-- One label for each of the ratings 1..n, all about the same point. -/
def allRatings (n : Nat) : List (Int × Fin 1) := (List.range n).map fun (y : Nat) => ((y : Int) + 1, 0)

section C39

theorem setB_length {o o' : OrdHyper ℝ} {arg : BArg ℝ} (h : o.setB arg = .ok o') (hn : 1 ≤ o'.n) :
    o'.b.length = o'.n + 1 := by
  cases arg with
  | scalar b =>
    simp only [OrdHyper.setB] at h
    split at h
    · cases h
    · cases h
      simp only [List.length_append, List.length_cons, List.length_nil, List.length_map]
      have : (linspace0 |b| (o.n - 1)).length = o.n - 1 := by
        unfold linspace0; split
        · next h1 => simp [h1]
        · simp
      simp only at hn
      omega
  | vec b =>
    simp only [OrdHyper.setB] at h
    split at h
    · next hl => cases h; exact hl
    · split at h
      · next hl => cases h; simp at hn ⊢; omega
      · cases h

theorem allRatings_lik {o : OrdHyper ℝ} (hb : o.b.length = o.n + 1) (f : ℝ) :
    ordLikEach o (allRatings o.n) (fun _ => f) =
      .ok ((List.range o.n).map fun y => ordC o (y + 1) f - ordC o y f) := by
  rw [ordLikEach_ok hb]
  · simp only [allRatings, List.map_map]
    congr 1
  · intro p hp
    obtain ⟨y, hy, rfl⟩ := List.mem_map.1 hp
    have := List.mem_range.1 hy
    simp only
    omega

/-- C39: after any successful `set_b` the probabilities of the ratings 1..n sum to 1, for every latent
value and noise level (whatever the boundaries). -/
theorem C39_total (o0 o : OrdHyper ℝ) (arg : BArg ℝ) (hset : o0.setB arg = .ok o) (hn : 1 ≤ o.n) (f : ℝ) :
    ∃ ls, ordLikEach o (allRatings o.n) (fun _ => f) = .ok ls ∧ ls.length = o.n ∧ ls.sum = 1 := by
  refine ⟨_, allRatings_lik (setB_length hset hn) f, by simp, ?_⟩
  have := telescope (fun k => ordC o k f) o.n 0 (by omega)
  rw [List.drop_zero] at this
  rw [this]
  have h0 : (0 : Nat) ≠ o.n := by omega
  simp [ordC, h0]

/-- C39: with boundaries in order and positive noise level each is a probability. -/
theorem C39_nonneg (o0 o : OrdHyper ℝ) (arg : BArg ℝ) (hset : o0.setB arg = .ok o) (hn : 1 ≤ o.n)
    (hs : 0 < o.sigma) (hsort : BoundariesSorted o.b) (f : ℝ) :
    ∃ ls, ordLikEach o (allRatings o.n) (fun _ => f) = .ok ls ∧ ∀ l ∈ ls, 0 ≤ l ∧ l ≤ 1 := by
  refine ⟨_, allRatings_lik (setB_length hset hn) f, ?_⟩
  intro l hl
  obtain ⟨y, hy, rfl⟩ := List.mem_map.1 hl
  have h1 := ordC_mono hs (setB_length hset hn) hsort (List.mem_range.1 hy) f
  have h2 := (ordC_mem o y f).1
  have h3 := (ordC_mem o (y + 1) f).2
  exact ⟨by linarith, by linarith⟩

/-- C39: the joint likelihood of several ratings is the product of their probabilities. -/
theorem C39_joint (o : OrdHyper ℝ) (t : List ℝ) (ht : HasThresholds o t) (y : List (Nat × Fin m))
    (F : Fin m → ℝ) (hy : ∀ p ∈ y, 1 ≤ p.1 ∧ p.1 ≤ o.n) (hr : OrdInRange t o.sigma y F) :
    ordLikelihood o (y.map fun p => ((p.1 : Int), p.2)) F
      = .ok (y.map fun p => ordProb t o.sigma p.1 (F p.2)).prod := by
  have h := ordLikEach_eq ht y F hy hr
  unfold castLabels at h
  unfold ordLikelihood
  rw [h]
  rfl

/-- Instance: two different ratings on a two-point scale. -/
example : ordLikelihood ⟨1, 2, [.neg, .fin 0, .pos]⟩ [(1, (0 : Fin 1)), (2, 0)] (fun _ => 0)
    = .ok (1 / 4) := by
  have ht : HasThresholds ⟨1, 2, [.neg, .fin 0, .pos]⟩ [0] := ⟨rfl, rfl⟩
  have h := C39_joint _ [0] ht [((1 : Nat), (0 : Fin 1)), (2, 0)] (fun _ => 0) (by simp) (by
    intro p _ k r _ hr
    have : r = 0 := by
      rcases k with _ | k
      · simpa using hr.symm
      · simp at hr
    subst this
    norm_num)
  refine h.trans ?_
  simp [ordProb, ordCum, Phi_zero]
  norm_num

/-- C39: the boundaries made from a scalar `b` (constructor, `set_hyper`) are in order for every `b`. -/
theorem C39_scalar_sorted (o0 o : OrdHyper ℝ) (b : ℝ) (hset : o0.setB (.scalar b) = .ok o) :
    BoundariesSorted o.b := by
  simp only [OrdHyper.setB] at hset
  split at hset
  · cases hset
  · cases hset
    have hsorted : (linspace0 |b| (o0.n - 1)).Pairwise (· ≤ ·) := by
      unfold linspace0
      split
      · simp
      · next h1 =>
        rw [List.pairwise_iff_getElem]
        intro i j hi hj hij
        simp only [List.length_map, List.length_range] at hi hj
        simp only [List.getElem_map, List.getElem_range]
        have hm : (0 : ℝ) < ((o0.n - 1 : Nat) : ℝ) - 1 := by
          have : (2 : ℝ) ≤ ((o0.n - 1 : Nat) : ℝ) := by exact_mod_cast (show 2 ≤ o0.n - 1 by omega)
          linarith
        refine mul_le_mul_of_nonneg_right (by exact_mod_cast hij.le) ?_
        exact div_nonneg (abs_nonneg _) hm.le
    simp only [BoundariesSorted, List.pairwise_append, List.pairwise_map, List.pairwise_singleton]
    refine ⟨⟨trivial, ?_, ?_⟩, trivial, ?_⟩
    · exact hsorted.imp fun h => by simpa [bndVal] using h
    · intro x hx y _
      simp only [List.mem_singleton] at hx
      subst hx
      simp [bndVal]
    · intro x _ y hy
      simp only [List.mem_singleton] at hy
      subst hy
      simp [bndVal]

/-- C39: a larger latent value makes high ratings (above `r`) at least as likely. -/
theorem C39_higher (o0 o : OrdHyper ℝ) (arg : BArg ℝ) (hset : o0.setB arg = .ok o) (hn : 1 ≤ o.n)
    (hs : 0 < o.sigma) (f g : ℝ) (hfg : f ≤ g) (r : Nat) (hr : r ≤ o.n) :
    ∃ lf lg, ordLikEach o (allRatings o.n) (fun _ => f) = .ok lf ∧
      ordLikEach o (allRatings o.n) (fun _ => g) = .ok lg ∧ (lf.drop r).sum ≤ (lg.drop r).sum := by
  refine ⟨_, _, allRatings_lik (setB_length hset hn) f, allRatings_lik (setB_length hset hn) g, ?_⟩
  rw [telescope (fun k => ordC o k f) o.n r hr, telescope (fun k => ordC o k g) o.n r hr]
  have h1 := ordC_anti hs r hfg
  have h2 : ∀ x, ordC o o.n x = 1 := fun x => by simp [ordC]
  rw [h2, h2]
  linarith

/-- C39: strictly more likely when the threshold of `r` is finite and inside the clipping limits. -/
theorem C39_strictly_higher (o : OrdHyper ℝ) (t : List ℝ) (ht : HasThresholds o t) (hs : 0 < o.sigma)
    (f g : ℝ) (hfg : f < g) (r : Nat) (x : ℝ) (hr : t[r]? = some x)
    (hlo : -30 ≤ (x - g) / o.sigma) (hhi : (x - f) / o.sigma ≤ 100) :
    ∃ lf lg, ordLikEach o (allRatings o.n) (fun _ => f) = .ok lf ∧
      ordLikEach o (allRatings o.n) (fun _ => g) = .ok lg ∧
      (lf.drop (r + 1)).sum < (lg.drop (r + 1)).sum := by
  obtain ⟨hrl, -⟩ := List.getElem?_eq_some_iff.1 hr
  have hn := ht.2
  refine ⟨_, _, allRatings_lik ht.length f, allRatings_lik ht.length g, ?_⟩
  rw [telescope (fun k => ordC o k f) o.n (r + 1) (by omega),
    telescope (fun k => ordC o k g) o.n (r + 1) (by omega)]
  have h2 : ∀ x, ordC o o.n x = 1 := fun x => by simp [ordC]
  have hlt : (x - g) / o.sigma < (x - f) / o.sigma := div_lt_div_of_pos_right (by linarith) hs
  have e : ∀ z, -30 ≤ (x - z) / o.sigma → (x - z) / o.sigma ≤ 100 →
      ordC o (r + 1) z = Phi ((x - z) / o.sigma) := by
    intro z h1 h3
    rw [ordC_eq ht (by omega)]
    · simp [ordCum, hr]
    · intro r' _ hr'
      simp only [Nat.add_sub_cancel] at hr'
      rw [hr] at hr'
      cases hr'
      exact ⟨h1, h3⟩
  rw [h2, h2, e f (by linarith) hhi, e g hlo (by linarith)]
  have := Phi_strictMono hlt
  linarith

/-- C39: ratings outside 1..n are rejected: a rating below 1 raises, one above n is an `IndexError`. -/
theorem C39_rejects (o0 o : OrdHyper ℝ) (arg : BArg ℝ) (hset : o0.setB arg = .ok o) (hn : 1 ≤ o.n)
    (y : List (Int × Fin m)) (F : Fin m → ℝ) :
    ((∃ p ∈ y, p.1 < 1) → ordLikEach o y F = .error .exception) ∧
    ((∀ p ∈ y, 1 ≤ p.1) → (∃ p ∈ y, (o.n : Int) < p.1) → ordLikEach o y F = .error .indexError) := by
  constructor
  · rintro ⟨p, hp, hlt⟩
    unfold ordLikEach
    rw [if_pos]
    simp only [List.any_eq_true, decide_eq_true_eq]
    exact ⟨p, hp, by omega⟩
  · rintro h1 ⟨p, hp, hlt⟩
    unfold ordLikEach
    rw [if_neg]
    · have hb := setB_length hset hn
      refine mapM_error _ _ _ ?_ ⟨p, hp, ordLik_error hb (by omega) _⟩
      intro q hq
      rcases Nat.lt_or_ge (q.1 - 1).toNat o.n with h | h
      · exact .inr ⟨_, ordLik_ok hb h _⟩
      · exact .inl (ordLik_error hb h _)
    · simp only [List.any_eq_true, decide_eq_true_eq, not_exists, not_and]
      intro q hq
      have := h1 q hq
      omega

/-- C39 "for all b" is false: `set_b` accepts boundaries that are not in order, and then a rating has
negative probability. -/
theorem C39_unsorted_counterexample :
    ∃ o : OrdHyper ℝ, OrdHyper.setB ⟨1, 3, []⟩ (.vec [.fin 1, .fin 0]) = .ok o ∧
      ∃ l, ordLikEach o [(2, (0 : Fin 1))] (fun _ => 0) = .ok [l] ∧ l < 0 := by
  have ht : HasThresholds ⟨1, 3, [.neg, .fin 1, .fin 0, .pos]⟩ [1, 0] := ⟨rfl, rfl⟩
  refine ⟨⟨1, 3, [.neg, .fin 1, .fin 0, .pos]⟩, rfl, _, ordLikEach_eq ht [(2, 0)] _ ?_ ?_, ?_⟩
  · simp
  · intro p hp k r hk hr
    simp only [List.mem_singleton] at hp
    subst hp
    rcases hk with hk | hk
    · obtain rfl : k = 1 := by simpa using hk
      simp at hr; subst hr; norm_num
    · obtain rfl : k = 0 := by simpa using hk
      simp at hr; subst hr; norm_num
  · simp only [ordProb, ordCum]
    have := Phi_strictMono (show (0 : ℝ) < 1 by norm_num)
    simp
    linarith

/-- Instance of the hypotheses of C39: the default probit (`sigma = 1`, `b = 1`, 5 ratings). -/
example : ∃ o : OrdHyper ℝ, OrdHyper.setB ⟨1, 5, []⟩ (.scalar 1) = .ok o ∧ 1 ≤ o.n ∧ 0 < o.sigma ∧
    BoundariesSorted o.b := by
  refine ⟨_, rfl, by norm_num, by norm_num, C39_scalar_sorted ⟨1, 5, []⟩ _ 1 rfl⟩

end C39

section C40

/-- C40, the part that holds: for data in range with pairwise different points and no likelihood below
`eps`, `derivatives` returns the log-likelihood and its gradient, and a diagonal `W` whose difference from
minus the Hessian is `((z₁-1)φ(z₁) - (z₂-1)φ(z₂)) / (σ² l)` per label. Missing: `W` itself (refuted
below), labels with a small likelihood (refuted below), repeated points (C42). -/
theorem C40_gradient_partial (o : OrdHyper ℝ) (t : List ℝ) (ht : HasThresholds o t) (eps : ℝ)
    (heps : 0 < eps) (y : List (Nat × Fin m)) (F : Fin m → ℝ) (hy : ∀ p ∈ y, 1 ≤ p.1 ∧ p.1 ≤ o.n)
    (hr : OrdInRange t o.sigma y F) (hl : ∀ p ∈ y, eps ≤ ordProb t o.sigma p.1 (F p.2))
    (hnd : (y.map (·.2)).Nodup) :
    ∃ W g ll, ordDerivatives o eps (y.map fun p => ((p.1 : Int), p.2)) F = .ok (some (W, g, ll)) ∧
      ll = ordLogLik t o.sigma y F ∧ IsGradientAt (ordLogLik t o.sigma y) g F ∧
      (∀ i j, i ≠ j → W i j = 0) ∧
      IsHessianAt (ordLogLik t o.sigma y) (fun i j => -W i j - (y.map fun p =>
        if p.2 = i ∧ p.2 = j then
          ((ordZP t o.sigma p.1 (F p.2) - ordP t o.sigma p.1 (F p.2)) -
            (ordZP t o.sigma (p.1 - 1) (F p.2) - ordP t o.sigma (p.1 - 1) (F p.2))) /
            (o.sigma ^ 2 * ordProb t o.sigma p.1 (F p.2))
        else 0).sum) F := by
  have hne : ∀ p ∈ y, ordProb t o.sigma p.1 (F p.2) ≠ 0 := fun p hp =>
    (lt_of_lt_of_le heps (hl p hp)).ne'
  refine ⟨_, _, _, ordDerivatives_eq ht heps y F hy hr hl, rfl, ?_, ?_, ?_⟩
  · have h1 := grad_separable y (·.2) (fun p x => Real.log (ordProb t o.sigma p.1 x))
      (fun p x => ordD t o.sigma p.1 x) F fun p hp => hasDerivAt_logOrdProb _ _ _ _ (hne p hp)
    have h2 : assignVec (y.map fun p => (p.2, ordD t o.sigma p.1 (F p.2))) = fun i =>
        (y.map fun p => if p.2 = i then ordD t o.sigma p.1 (F p.2) else 0).sum := by
      funext i
      rw [assignVec_eq, lastValue_nodup _ (by simpa [Function.comp_def] using hnd)]
      simp [Function.comp_def]
    rw [h2]
    exact h1
  · intro i j hij
    rw [assignGrid_eq, if_neg hij]
  · have h1 := hess_separable y (·.2) (fun p x => Real.log (ordProb t o.sigma p.1 x))
      (fun p x => ordD t o.sigma p.1 x) (fun p => ordD2 t o.sigma p.1 (F p.2)) F
      (fun p hp => by
        have hc : ContinuousAt (ordProb t o.sigma p.1) (F p.2) :=
          (hasDerivAt_ordProb t o.sigma p.1 (F p.2)).continuousAt
        filter_upwards [hc.eventually_ne (hne p hp)] with x hx
        exact hasDerivAt_logOrdProb _ _ _ _ hx)
      (fun p hp => hasDerivAt_ordD _ _ _ _ (hne p hp))
    have h2 : (fun i j => -assignGrid (y.map fun p => (p.2, -codeD2 t o.sigma p.1 (F p.2))) i j -
        (y.map fun p => if p.2 = i ∧ p.2 = j then
          ((ordZP t o.sigma p.1 (F p.2) - ordP t o.sigma p.1 (F p.2)) -
            (ordZP t o.sigma (p.1 - 1) (F p.2) - ordP t o.sigma (p.1 - 1) (F p.2))) /
            (o.sigma ^ 2 * ordProb t o.sigma p.1 (F p.2)) else 0).sum) =
        fun i j => (y.map fun p => if p.2 = i ∧ p.2 = j then ordD2 t o.sigma p.1 (F p.2) else 0).sum := by
      funext i j
      rw [assignGrid_eq]
      by_cases hij : i = j
      · subst hij
        rw [if_pos rfl, lastValue_nodup _ (by simpa [Function.comp_def] using hnd), sub_eq_add_neg, sum_map_neg, sum_map_neg,
          List.map_map, sum_map_add]
        refine sum_map_congr fun p hp => ?_
        have := hne p hp
        by_cases hp : p.2 = i
        · simp only [Function.comp, hp, if_true, and_self, codeD2, ordD2]
          rw [hp] at this
          ring_nf
        · simp [hp]
      · rw [if_neg hij]
        have h0 : ∀ p : Nat × Fin m, ¬ (p.2 = i ∧ p.2 = j) := fun p h => hij (h.1.symm.trans h.2)
        simp [h0]
    rw [h2]
    exact h1

/-- C40 as stated is false: for a lowest rating of one point the returned `W` is minus the Hessian only
if the standardised distance to the threshold happens to be exactly 1. -/
theorem C40_hessian_false (o : OrdHyper ℝ) (t : List ℝ) (ht : HasThresholds o t) (hs : 0 < o.sigma) (eps : ℝ)
    (heps : 0 < eps) (u : Fin m) (F : Fin m → ℝ) (x : ℝ) (hx : t[0]? = some x)
    (hlo : -30 ≤ (x - F u) / o.sigma) (hhi : (x - F u) / o.sigma ≤ 100)
    (hl : eps ≤ Phi ((x - F u) / o.sigma)) :
    ∃ W g ll, ordDerivatives o eps [(1, u)] F = .ok (some (W, g, ll)) ∧
      (IsHessianAt (ordLogLik t o.sigma [(1, u)]) (fun i j => -W i j) F → (x - F u) / o.sigma = 1) := by
  have hprob : ordProb t o.sigma 1 (F u) = Phi ((x - F u) / o.sigma) := by
    simp [ordProb, ordCum, hx]
  obtain ⟨W, g, ll, h1, -, -, -, h5⟩ := C40_gradient_partial o t ht eps heps [(1, u)] F
    (by have := ht.2; simp; omega)
    (by
      intro p hp k r hk hr
      simp only [List.mem_singleton] at hp
      subst hp
      obtain rfl : k = 0 := by simpa using hk
      rw [hx] at hr; cases hr
      exact ⟨hlo, hhi⟩)
    (by simp only [List.mem_singleton, forall_eq]; rw [hprob]; exact hl)
    (by simp)
  refine ⟨W, g, ll, h1, fun hH => ?_⟩
  have := hH.unique_entry h5 u u
  simp only [List.map_cons, List.map_nil, and_self, if_true, List.sum_cons, List.sum_nil, add_zero] at this
  have h0 : (ordZP t o.sigma 1 (F u) - ordP t o.sigma 1 (F u) -
      (ordZP t o.sigma (1 - 1) (F u) - ordP t o.sigma (1 - 1) (F u))) /
      (o.sigma ^ 2 * ordProb t o.sigma 1 (F u)) = 0 := by linarith
  have hp := Phi_pos ((x - F u) / o.sigma)
  rw [hprob, div_eq_zero_iff] at h0
  have hphi := phi_pos ((x - F u) / o.sigma)
  rcases h0 with h0 | h0
  · simp only [ordZP, ordP, hx, Nat.sub_self, sub_zero] at h0
    have : ((x - F u) / o.sigma - 1) * phi ((x - F u) / o.sigma) = 0 := by linarith
    rcases mul_eq_zero.1 this with h | h
    · linarith
    · exact absurd h hphi.ne'
  · exact absurd h0 (by positivity)

/-- The returned `W` need not even be positive semi-definite: with two ratings, a rating of 2 for a point
whose latent value is exactly the threshold gives a negative diagonal entry. -/
theorem C40_W_negative_counterexample :
    ∃ o : OrdHyper ℝ, OrdHyper.init 1 0 2 = .ok o ∧
      ∃ W g ll, ordDerivatives o (1 / 10 ^ 10) [(2, (0 : Fin 1))] (fun _ => 0) = .ok (some (W, g, ll)) ∧
        W 0 0 < 0 := by
  have ho : OrdHyper.init (1 : ℝ) 0 2 = .ok ⟨1, 2, [.neg, .fin 0, .pos]⟩ := by
    simp [OrdHyper.init, OrdHyper.setHyper, OrdHyper.setB, linspace0]
  have ht : HasThresholds ⟨1, 2, [.neg, .fin 0, .pos]⟩ [0] := ⟨rfl, rfl⟩
  have hp : ordProb [0] 1 2 0 = 1 / 2 := by
    simp [ordProb, ordCum, Phi_zero]; norm_num
  refine ⟨_, ho, _, _, _, ordDerivatives_eq ht (by norm_num) [(2, 0)] _ (by simp) ?_ ?_, ?_⟩
  · intro p hp k r hk hr
    simp only [List.mem_singleton] at hp
    subst hp
    rcases hk with hk | hk
    · obtain rfl : k = 1 := by simpa using hk
      simp at hr
    · obtain rfl : k = 0 := by simpa using hk
      simp at hr; subst hr; norm_num
  · simp only [List.mem_singleton, forall_eq]
    rw [hp]; norm_num
  · rw [assignGrid_eq, if_pos rfl]
    simp only [List.map_cons, List.map_nil]
    rw [show ([((0 : Fin 1), -codeD2 [0] 1 2 0)] : List (Fin 1 × ℝ)) = [] ++ (0, -codeD2 [0] 1 2 0) :: [] by rfl,
      lastValue_hit _ _ _ _ (by simp)]
    simp only [codeD2, ordD, hp, ordP]
    simp
    have h1 : phi 0 < 1 / 2 := by
      have h4 : 2 < Real.sqrt (2 * Real.pi) := by
        rw [Real.lt_sqrt (by norm_num)]
        nlinarith [Real.pi_gt_three]
      have h5 : phi 0 = 1 / Real.sqrt (2 * Real.pi) := by
        unfold phi
        rw [show (-((0 : ℝ) ^ 2) / 2) = 0 by norm_num, Real.exp_zero]
      rw [h5]
      exact one_div_lt_one_div_of_lt (by norm_num) h4
    have h2 := phi_pos 0
    nlinarith

/-- Where the likelihood is below `eps` the code switches to asymptotic formulas, which are never exactly
the derivative: for a lowest rating the returned gradient is always wrong. -/
theorem C40_small_likelihood_false (o : OrdHyper ℝ) (t : List ℝ) (ht : HasThresholds o t) (hs : 0 < o.sigma)
    (eps : ℝ) (u : Fin m) (F : Fin m → ℝ) (x : ℝ) (hx : t[0]? = some x)
    (hlo : -30 ≤ (x - F u) / o.sigma) (hhi : (x - F u) / o.sigma ≤ 100)
    (hl : Phi ((x - F u) / o.sigma) < eps) :
    ∃ W g ll, ordDerivatives o eps [(1, u)] F = .ok (some (W, g, ll)) ∧
      ¬ IsGradientAt (ordLogLik t o.sigma [(1, u)]) g F := by
  have hprob : ordProb t o.sigma 1 (F u) = Phi ((x - F u) / o.sigma) := by
    simp [ordProb, ordCum, hx]
  have hp := Phi_pos ((x - F u) / o.sigma)
  have hlik := ordLikEach_eq ht [(1, u)] F (by have := ht.2; simp; omega) (by
      intro p hp k r hk hr
      simp only [List.mem_singleton] at hp
      subst hp
      obtain rfl : k = 0 := by simpa using hk
      rw [hx] at hr; cases hr
      exact ⟨hlo, hhi⟩)
  simp only [castLabels, List.map_cons, List.map_nil, Nat.cast_one, hprob] at hlik
  obtain ⟨h0, hx0⟩ := List.getElem?_eq_some_iff.1 hx
  have hz : ordZ o 1 (F u) = .ok (some (1 / o.sigma * (x - F u))) := by
    have := ht.getElem h0
    simp only [zero_add] at this
    simp [ordZ, this, hx0]
  refine ⟨assignGrid [(u, -(-(1 / o.sigma) ^ 2))],
    assignVec [(u, 1 / o.sigma * (1 / o.sigma * (x - F u)))], Real.log (Phi ((x - F u) / o.sigma)), ?_, ?_⟩
  · unfold ordDerivatives
    rw [hlik]
    simp only [bind, Except.bind, List.map_cons, List.map_nil, List.zip_cons_cons, List.zip_nil_left,
      List.mapM_cons, List.mapM_nil, ordDerv1, if_pos hl, sub_self, Int.toNat_zero, zero_add, if_true, hz,
      pure, Except.pure, Option.map, npLog, if_pos hp, Option.bind, id, List.sum_cons, List.sum_nil, add_zero]
  · intro hg
    have h1 := grad_separable [((1 : Nat), u)] (·.2) (fun p x => Real.log (ordProb t o.sigma p.1 x))
      (fun p x => ordD t o.sigma p.1 x) F (by
        intro p hp'
        simp only [List.mem_singleton] at hp'
        subst hp'
        exact hasDerivAt_logOrdProb _ _ _ _ (by rw [hprob]; exact hp.ne'))
    have h2 := Spec.IsGradientAt.unique_entry hg h1 u
    rw [assignVec_eq, lastValue_nodup _ (by simp)] at h2
    simp only [List.map_cons, List.map_nil, if_true, List.sum_cons, List.sum_nil, add_zero, ordD,
      hprob, ordP, hx, Nat.sub_self, sub_zero] at h2
    have h3 := mills ((x - F u) / o.sigma)
    set z := (x - F u) / o.sigma with hzdef
    have h4 : 1 / o.sigma * (x - F u) = z := by rw [hzdef]; ring
    rw [h4] at h2
    have h5 : z = -(phi z / Phi z) := by
      field_simp at h2 ⊢
      linarith
    have h6 : z * Phi z + phi z = 0 := by
      rw [show z * Phi z = -(phi z / Phi z) * Phi z by rw [← h5]]
      field_simp
      ring
    linarith

/-- The small-likelihood situation does occur inside the clipping limits. -/
example : Phi (-29) < 1 / 10 ^ 10 := by
  have h1 := mills (-29)
  have h2 : phi (-29) ≤ Real.exp (-(29 ^ 2) / 2) := by
    unfold phi
    rw [show ((-29 : ℝ)) ^ 2 = 29 ^ 2 by norm_num]
    refine div_le_self (Real.exp_pos _).le ?_
    rw [Real.one_le_sqrt]
    nlinarith [Real.pi_gt_three]
  have h3 : Real.exp (-(29 ^ 2) / 2) ≤ Real.exp (-40) := Real.exp_le_exp.2 (by norm_num)
  have h4 : Real.exp (-40) ≤ 1 / 2 ^ 40 := by
    rw [Real.exp_neg, one_div]
    refine inv_anti₀ (by positivity) ?_
    rw [show (40 : ℝ) = (40 : Nat) * 1 by norm_num, Real.exp_nat_mul]
    exact pow_le_pow_left₀ (by norm_num) (by linarith [Real.exp_one_gt_d9]) 40
  have h5 : (1 : ℝ) / 2 ^ 40 < 1 / 10 ^ 10 := by norm_num
  have h6 := Phi_pos (-29)
  nlinarith

/-- A further failure below `eps`: a middle rating whose two thresholds are equally far from the latent
value gets no finite derivatives (0/0 in numpy), although its likelihood is positive. -/
theorem C40_midpoint_counterexample (o : OrdHyper ℝ) (t : List ℝ) (ht : HasThresholds o t) (eps : ℝ)
    (u : Fin m) (F : Fin m → ℝ) (k : Nat) (a b : ℝ) (ha : t[k]? = some a) (hb : t[k + 1]? = some b)
    (hmid : b - F u = -(a - F u))
    (hr : OrdInRange t o.sigma [(k + 2, u)] F)
    (hl : ordProb t o.sigma (k + 2) (F u) < eps) :
    ordDerivatives o eps [((k + 2 : Nat), u)] F = .ok none := by
  obtain ⟨hka, hka'⟩ := List.getElem?_eq_some_iff.1 ha
  obtain ⟨hkb, hkb'⟩ := List.getElem?_eq_some_iff.1 hb
  have hlik := ordLikEach_eq ht [(k + 2, u)] F (by have := ht.2; simp; omega) hr
  simp only [castLabels, List.map_cons, List.map_nil] at hlik
  have hz1 : ordZ o (k + 1 + 1) (F u) = .ok (some (1 / o.sigma * (b - F u))) := by
    have := ht.getElem hkb
    simp [ordZ, this, hkb']
  have hz2 : ordZ o (k + 1) (F u) = .ok (some (1 / o.sigma * (a - F u))) := by
    have := ht.getElem hka
    simp [ordZ, this, hka']
  have hn : k + 1 + 1 ≠ o.n := by have := ht.2; omega
  have hk1 : k + 1 + 1 ≠ 1 := by omega
  have he : (((k + 2 : Nat) : Int) - 1).toNat = k + 1 := by omega
  have hs : ordSmallMiddle o.sigma (1 / o.sigma * (b - F u)) (1 / o.sigma * (a - F u)) = none := by
    unfold ordSmallMiddle
    rw [hmid]
    refine if_pos ?_
    rw [sub_eq_zero, Real.exp_eq_one_iff]
    ring
  unfold ordDerivatives
  rw [hlik]
  simp only [bind, Except.bind, List.map_cons, List.map_nil, List.zip_cons_cons, List.zip_nil_left,
    List.mapM_cons, List.mapM_nil, ordDerv1, if_pos hl, he, if_neg hk1, if_neg hn, hz1, hz2, hs,
    pure, Except.pure, Option.bind, id]

/-- Instance: thresholds ∓1/10 around the latent value and a large noise level; the threshold `eps` below
which the asymptotic formulas are used is 1/2 here, the likelihood is positive. -/
example : HasThresholds ⟨1, 3, [.neg, .fin (-(1 / 10)), .fin (1 / 10), .pos]⟩ [-(1 / 10), 1 / 10] ∧
    OrdInRange [-(1 / 10), 1 / 10] 1 [(2, (0 : Fin 1))] (fun _ => 0) ∧
    0 < ordProb [-(1 / 10), 1 / 10] 1 2 0 := by
  refine ⟨⟨rfl, rfl⟩, ?_, ?_⟩
  · intro p hp k r hk hr
    simp only [List.mem_singleton] at hp
    subst hp
    rcases hk with hk | hk
    · obtain rfl : k = 1 := by simpa using hk
      simp at hr; subst hr; norm_num
    · obtain rfl : k = 0 := by simpa using hk
      simp at hr; subst hr; norm_num
  · simp only [ordProb, ordCum]
    simp only [List.getElem?_cons_succ, List.getElem?_cons_zero, sub_zero, div_one]
    exact sub_pos.2 (Phi_strictMono (by norm_num))

end C40

section C42

/-- C42 refuted for ordinal labels: a rating of a point that is rated again later has no effect on the returned
gradient and `W` (while the returned log-likelihood counts it). -/
theorem C42_ordinal_counterexample (o : OrdHyper ℝ) (t : List ℝ) (ht : HasThresholds o t) (eps : ℝ)
    (heps : 0 < eps) (l1 l2 : List (Nat × Fin m)) (a : Nat) (u : Fin m) (hu : u ∈ l2.map (·.2)) (F : Fin m → ℝ)
    (hy : ∀ p ∈ l1 ++ (a, u) :: l2, 1 ≤ p.1 ∧ p.1 ≤ o.n) (hr : OrdInRange t o.sigma (l1 ++ (a, u) :: l2) F)
    (hl : ∀ p ∈ l1 ++ (a, u) :: l2, eps ≤ ordProb t o.sigma p.1 (F p.2)) :
    ∃ W g ll ll', ordDerivatives o eps ((l1 ++ (a, u) :: l2).map fun p => ((p.1 : Int), p.2)) F
        = .ok (some (W, g, ll)) ∧
      ordDerivatives o eps ((l1 ++ l2).map fun p => ((p.1 : Int), p.2)) F = .ok (some (W, g, ll')) ∧
      ll = ll' + Real.log (ordProb t o.sigma a (F u)) := by
  have hsub : ∀ p ∈ l1 ++ l2, p ∈ l1 ++ (a, u) :: l2 := by
    intro p hp
    rcases List.mem_append.1 hp with hp | hp
    · exact List.mem_append_left _ hp
    · exact List.mem_append_right _ (List.mem_cons_of_mem _ hp)
  have h1 := ordDerivatives_eq ht heps (l1 ++ (a, u) :: l2) F hy hr hl
  have h2 := ordDerivatives_eq ht heps (l1 ++ l2) F (fun p hp => hy p (hsub p hp))
    (fun p hp => hr p (hsub p hp)) (fun p hp => hl p (hsub p hp))
  have key : ∀ (g : Nat × Fin m → ℝ) (i : Fin m), lastValue ((l1 ++ l2).map fun p => (p.2, g p)) i =
      lastValue ((l1 ++ (a, u) :: l2).map fun p => (p.2, g p)) i := by
    intro g i
    by_cases hi : i ∈ l2.map (·.2)
    · obtain ⟨b, hb, rfl⟩ := List.mem_map.1 hi
      have e1 : ∀ pre : List (Nat × Fin m), lastValue ((pre ++ l2).map fun p => (p.2, g p)) b.2 =
          lastValue (l2.map fun p => (p.2, g p)) b.2 := by
        intro pre
        unfold lastValue
        rw [List.map_append, List.filter_append, List.getLast?_append]
        have : ((l2.map fun p => (p.2, g p)).filter fun e => e.1 = b.2) ≠ [] := by
          intro h0
          rw [List.filter_eq_nil_iff] at h0
          exact h0 (b.2, g b) (List.mem_map.2 ⟨b, hb, rfl⟩) (by simp)
        rw [List.getLast?_eq_some_getLast this]
        rfl
      rw [show l1 ++ (a, u) :: l2 = (l1 ++ [(a, u)]) ++ l2 by simp, e1, e1]
    · have hui : u ≠ i := fun e => hi (e ▸ hu)
      simp [lastValue, hui, List.filter_append, List.filter_cons]
  refine ⟨_, _, _, ordLogLik t o.sigma (l1 ++ l2) F, h1, ?_, ?_⟩
  · have e1 : assignGrid ((l1 ++ l2).map fun p => (p.2, -codeD2 t o.sigma p.1 (F p.2))) =
        assignGrid ((l1 ++ (a, u) :: l2).map fun p => (p.2, -codeD2 t o.sigma p.1 (F p.2))) := by
      funext i j
      rw [assignGrid_eq, assignGrid_eq, key fun p => -codeD2 t o.sigma p.1 (F p.2)]
    have e2 : assignVec ((l1 ++ l2).map fun p => (p.2, ordD t o.sigma p.1 (F p.2))) =
        assignVec ((l1 ++ (a, u) :: l2).map fun p => (p.2, ordD t o.sigma p.1 (F p.2))) := by
      funext i
      rw [assignVec_eq, assignVec_eq, key fun p => ordD t o.sigma p.1 (F p.2)]
    rw [← e1, ← e2]
    exact h2
  · simp [ordLogLik]; ring

/-- Instance: both ratings of a two-point scale given to the same point (`l1` empty). -/
example : (∀ p ∈ [((1 : Nat), (0 : Fin 1)), (2, 0)], 1 ≤ p.1 ∧ p.1 ≤ 2) ∧
    OrdInRange [0] 1 [((1 : Nat), (0 : Fin 1)), (2, 0)] (fun _ => 0) ∧
    ∀ p ∈ [((1 : Nat), (0 : Fin 1)), (2, 0)], 1 / 10 ≤ ordProb [0] 1 p.1 0 := by
  refine ⟨by simp, ?_, ?_⟩
  · intro p hp k r _ hr
    have : r = 0 := by
      rcases k with _ | k
      · simpa using hr.symm
      · simp at hr
    subst this
    norm_num
  · intro p hp
    simp only [List.mem_cons, List.not_mem_nil, or_false] at hp
    rcases hp with rfl | rfl <;> simp [ordProb, ordCum, Phi_zero] <;> norm_num

end C42

end Lop.Props
