import Verif.Proofs.OrdProbit
import Verif.Proofs.ModeLearned
import Verif.Spec.OrdMode

/-! # The logarithm of an interval probability of a normal variable is concave in the mean -/

namespace Lop

open Lop.Spec Lop.Props Set

/-- Left of zero: a truncated normal variable has variance at most one. -/
theorem gauss_interval_neg {A B : ℝ} (hBA : B ≤ A) (hA : A ≤ 0) :
    (Phi A - Phi B) * (B * phi B - A * phi A) ≤ (phi A - phi B) ^ 2 := by
  have hχ : MonotoneOn (fun x => -x * phi x + (2 * x - B) * phi B + (Phi x - Phi B) * (1 - x ^ 2)) (Icc B 0) := by
    refine monotoneOn_of_deriv_nonneg (convex_Icc B 0) ?_ ?_ ?_
    · exact fun x _ => ContinuousAt.continuousWithinAt (HasDerivAt.continuousAt (((((hasDerivAt_id x).neg.mul (hasDerivAt_phi x)).add
        ((((hasDerivAt_id x).const_mul 2).sub_const B).mul_const (phi B))).add
        (((hasDerivAt_Phi x).sub_const (Phi B)).mul (((hasDerivAt_id x).pow 2).const_sub 1)))))
    · exact fun x _ => (HasDerivAt.differentiableAt (((((hasDerivAt_id x).neg.mul (hasDerivAt_phi x)).add
        ((((hasDerivAt_id x).const_mul 2).sub_const B).mul_const (phi B))).add
        (((hasDerivAt_Phi x).sub_const (Phi B)).mul (((hasDerivAt_id x).pow 2).const_sub 1))))).differentiableWithinAt
    · intro x hx
      rw [interior_Icc] at hx
      have hd : HasDerivAt (fun x => -x * phi x + (2 * x - B) * phi B + (Phi x - Phi B) * (1 - x ^ 2))
          (2 * (phi B - x * (Phi x - Phi B))) x := by
        have := ((((hasDerivAt_id x).neg.mul (hasDerivAt_phi x)).add
          ((((hasDerivAt_id x).const_mul 2).sub_const B).mul_const (phi B))).add
          (((hasDerivAt_Phi x).sub_const (Phi B)).mul (((hasDerivAt_id x).pow 2).const_sub 1)))
        refine this.congr_deriv ?_
        simp only [Pi.neg_apply, Pi.pow_apply, id]
        push_cast
        ring
      rw [hd.deriv]
      have h1 := Phi_strictMono.monotone hx.1.le
      have h2 := phi_pos B
      have := mul_nonneg (neg_nonneg.2 hx.2.le) (sub_nonneg.2 h1)
      linarith
  have hχ0 : ∀ x ∈ Icc B 0, 0 ≤ -x * phi x + (2 * x - B) * phi B + (Phi x - Phi B) * (1 - x ^ 2) := by
    intro x hx
    have := hχ ⟨le_refl B, hBA.trans hA⟩ hx hx.1
    simp only [sub_self, zero_mul, add_zero] at this
    linarith
  have hΨ : MonotoneOn (fun x => (phi x - phi B) ^ 2 - (Phi x - Phi B) * (B * phi B - x * phi x)) (Icc B 0) := by
    have hd : ∀ x, HasDerivAt (fun x => (phi x - phi B) ^ 2 - (Phi x - Phi B) * (B * phi B - x * phi x))
        (phi x * (-x * phi x + (2 * x - B) * phi B + (Phi x - Phi B) * (1 - x ^ 2))) x := by
      intro x
      have := ((((hasDerivAt_phi x).sub_const (phi B)).pow 2)).sub (((hasDerivAt_Phi x).sub_const (Phi B)).mul
        ((((hasDerivAt_id x).mul (hasDerivAt_phi x))).const_sub (B * phi B)))
      refine this.congr_deriv ?_
      simp only [Pi.mul_apply, id]
      push_cast
      ring
    refine monotoneOn_of_deriv_nonneg (convex_Icc B 0) (fun x _ => (hd x).continuousAt.continuousWithinAt)
      (fun x _ => (hd x).differentiableAt.differentiableWithinAt) fun x hx => ?_
    rw [(hd x).deriv]
    exact mul_nonneg (phi_pos x).le (hχ0 x (interior_subset hx))
  have := hΨ ⟨le_refl B, hBA.trans hA⟩ ⟨hBA, hA⟩ hBA
  simp only [sub_self, zero_mul] at this
  linarith

/-- A normal variable truncated to an interval has variance at most one. -/
theorem gauss_interval {A B : ℝ} (hBA : B ≤ A) :
    (Phi A - Phi B) * (B * phi B - A * phi A) ≤ (phi A - phi B) ^ 2 := by
  rcases le_total A 0 with hA | hA
  · exact gauss_interval_neg hBA hA
  rcases le_total B 0 with hB | hB
  · have h1 : B * phi B - A * phi A ≤ 0 := by
      have := mul_nonneg hA (phi_pos A).le
      have := mul_nonneg (neg_nonneg.2 hB) (phi_pos B).le
      linarith
    have h2 := sub_nonneg.2 (Phi_strictMono.monotone hBA)
    have := mul_nonneg h2 (neg_nonneg.2 h1)
    nlinarith [sq_nonneg (phi A - phi B)]
  · have := gauss_interval_neg (neg_le_neg hBA) (neg_nonpos.2 hB)
    rw [Phi_neg, Phi_neg, phi_neg, phi_neg] at this
    nlinarith

/-- Concavity of the log-probability of an interval as a function of the mean. -/
theorem concave_log_interval {a b : ℝ} (h : b < a) :
    ConcaveOn ℝ univ (fun f => Real.log (Phi (a - f) - Phi (b - f))) := by
  have hN : ∀ f, 0 < Phi (a - f) - Phi (b - f) := fun f => sub_pos.2 (Phi_strictMono (by linarith))
  have hs : ∀ c f : ℝ, HasDerivAt (fun f => c - f) (-1) f := fun c f => by
    simpa using (hasDerivAt_id f).const_sub c
  have hP : ∀ c f : ℝ, HasDerivAt (fun f => Phi (c - f)) (-phi (c - f)) f := fun c f => by
    have := (hasDerivAt_Phi (c - f)).comp f (hs c f)
    refine this.congr_deriv ?_
    ring
  have hp : ∀ c f : ℝ, HasDerivAt (fun f => phi (c - f)) ((c - f) * phi (c - f)) f := fun c f => by
    have := (hasDerivAt_phi (c - f)).comp f (hs c f)
    refine this.congr_deriv ?_
    ring
  have hd : ∀ f, HasDerivAt (fun f => Real.log (Phi (a - f) - Phi (b - f)))
      ((phi (b - f) - phi (a - f)) / (Phi (a - f) - Phi (b - f))) f := fun f => by
    have := ((hP a f).sub (hP b f)).log (hN f).ne'
    refine this.congr_deriv ?_
    simp only [Pi.sub_apply]
    ring
  have hdd : deriv (fun f => Real.log (Phi (a - f) - Phi (b - f))) =
      fun f => (phi (b - f) - phi (a - f)) / (Phi (a - f) - Phi (b - f)) := funext fun f => (hd f).deriv
  refine Antitone.concaveOn_univ_of_deriv (fun f => (hd f).differentiableAt) ?_
  rw [hdd]
  have hd2 : ∀ f, HasDerivAt (fun f => (phi (b - f) - phi (a - f)) / (Phi (a - f) - Phi (b - f)))
      ((((b - f) * phi (b - f) - (a - f) * phi (a - f)) * (Phi (a - f) - Phi (b - f)) -
        (phi (b - f) - phi (a - f)) * (-phi (a - f) - -phi (b - f))) / (Phi (a - f) - Phi (b - f)) ^ 2) f := fun f =>
    ((hp b f).sub (hp a f)).div ((hP a f).sub (hP b f)) (hN f).ne'
  refine antitone_of_deriv_nonpos (fun f => (hd2 f).differentiableAt) fun f => ?_
  rw [(hd2 f).deriv]
  refine div_nonpos_of_nonpos_of_nonneg ?_ (sq_nonneg _)
  have := gauss_interval (show b - f ≤ a - f by linarith)
  nlinarith

theorem concave_logPhi : ConcaveOn ℝ univ (fun x => Real.log (Phi x)) := by
  have hd : deriv (fun x => Real.log (Phi x)) = mratio := funext fun x => (hasDerivAt_logPhi x).deriv
  refine Antitone.concaveOn_univ_of_deriv (fun x => (hasDerivAt_logPhi x).differentiableAt) ?_
  rw [hd]
  exact mratio_antitone

/-- Composition of a concave function with an affine one. -/
theorem concave_affine {g : ℝ → ℝ} (h : ConcaveOn ℝ univ g) (c d : ℝ) :
    ConcaveOn ℝ univ (fun f => g (c * f + d)) := by
  refine ⟨convex_univ, fun x _ y _ a b ha hb hab => ?_⟩
  have := h.2 (mem_univ (c * x + d)) (mem_univ (c * y + d)) ha hb hab
  simp only [smul_eq_mul] at this ⊢
  rwa [show c * (a * x + b * y) + d = a * (c * x + d) + b * (c * y + d) by
    obtain rfl : b = 1 - a := by linarith
    ring]

section Ratings

variable {t : List ℝ} {sigma : ℝ}

/-- The four shapes of the probability of a rating. -/
theorem ordProb_cases (ht : t.Pairwise (· < ·)) (sigma : ℝ) {k : Nat} (h1 : 1 ≤ k) (h2 : k ≤ t.length + 1) :
    (t = [] ∧ k = 1 ∧ ∀ f, ordProb t sigma k f = 1) ∨
    (∃ r, t[k - 1]? = some r ∧ k = 1 ∧ ∀ f, ordProb t sigma k f = Phi ((r - f) / sigma)) ∨
    (∃ r, t[k - 2]? = some r ∧ 2 ≤ k ∧ k = t.length + 1 ∧ ∀ f, ordProb t sigma k f = 1 - Phi ((r - f) / sigma)) ∨
    ∃ r s, t[k - 2]? = some r ∧ t[k - 1]? = some s ∧ 2 ≤ k ∧ r < s ∧
      ∀ f, ordProb t sigma k f = Phi ((s - f) / sigma) - Phi ((r - f) / sigma) := by
  obtain ⟨k, rfl⟩ : ∃ j, k = j + 1 := ⟨k - 1, by omega⟩
  cases k with
  | zero =>
    cases t with
    | nil => exact .inl ⟨rfl, rfl, fun f => by simp [ordProb, ordCum]⟩
    | cons a t => exact .inr (.inl ⟨a, by simp, rfl, fun f => by simp [ordProb, ordCum]⟩)
  | succ k =>
    have hk : k < t.length := by omega
    have e : t[k + 1 + 1 - 2]? = some t[k] := by simp [hk]
    have e' : t[k]? = some t[k] := by simp [hk]
    by_cases hk2 : k + 1 < t.length
    · have e2 : t[k + 1 + 1 - 1]? = some t[k + 1] := by simp [hk2]
      have e2' : t[k + 1]? = some t[k + 1] := by simp [hk2]
      refine .inr (.inr (.inr ⟨t[k], t[k + 1], e, e2, by omega, List.pairwise_iff_getElem.1 ht k (k + 1) hk hk2 (by omega),
        fun f => ?_⟩))
      simp [ordProb, ordCum, hk, hk2]
    · refine .inr (.inr (.inl ⟨t[k], e, by omega, by omega, fun f => ?_⟩))
      have : t[k + 1]? = none := by simp; omega
      simp [ordProb, ordCum, hk, this]

theorem ordProb_gt_zero (ht : t.Pairwise (· < ·)) (hs : 0 < sigma) {k : Nat} (h1 : 1 ≤ k) (h2 : k ≤ t.length + 1) (f : ℝ) :
    0 < ordProb t sigma k f := by
  rcases ordProb_cases ht sigma h1 h2 with ⟨-, -, h⟩ | ⟨r, -, -, h⟩ | ⟨r, -, -, -, h⟩ | ⟨r, s, -, -, -, hrs, h⟩ <;> rw [h]
  · norm_num
  · exact Phi_pos _
  · linarith [Phi_lt_one ((r - f) / sigma)]
  · exact sub_pos.2 (Phi_strictMono (by gcongr))

theorem ordProb_le_one (ht : t.Pairwise (· < ·)) {k : Nat} (h1 : 1 ≤ k) (h2 : k ≤ t.length + 1)
    (f : ℝ) : ordProb t sigma k f ≤ 1 := by
  rcases ordProb_cases ht sigma h1 h2 with ⟨-, -, h⟩ | ⟨r, -, -, h⟩ | ⟨r, -, -, -, h⟩ | ⟨r, s, -, -, -, hrs, h⟩ <;> rw [h]
  · exact (Phi_lt_one _).le
  · linarith [Phi_pos ((r - f) / sigma)]
  · linarith [Phi_pos ((r - f) / sigma), Phi_lt_one ((s - f) / sigma)]

/-- The log-probability of a rating is concave in the value. -/
theorem concave_logOrdProb (ht : t.Pairwise (· < ·)) (hs : 0 < sigma) {k : Nat} (h1 : 1 ≤ k) (h2 : k ≤ t.length + 1) :
    ConcaveOn ℝ univ (fun f => Real.log (ordProb t sigma k f)) := by
  rcases ordProb_cases ht sigma h1 h2 with ⟨-, -, h⟩ | ⟨r, -, -, h⟩ | ⟨r, -, -, -, h⟩ | ⟨r, s, -, -, -, hrs, h⟩ <;>
    simp only [h]
  · exact concaveOn_const _ convex_univ
  · have := concave_affine concave_logPhi (-(1 / sigma)) (r / sigma)
    convert this using 4
    ring
  · have := concave_affine concave_logPhi (1 / sigma) (-(r / sigma))
    convert this using 3
    rw [← Phi_neg]
    congr 1
    ring
  · have := concave_affine (concave_log_interval (show r / sigma < s / sigma by gcongr)) (1 / sigma) 0
    convert this using 4
    · congr 1; ring
    · congr 1; ring

/-- The mean of a normal variable restricted to an interval lies in the interval. -/
theorem interval_mean {A B : ℝ} (h : B < A) :
    B * (Phi A - Phi B) < phi B - phi A ∧ phi B - phi A < A * (Phi A - Phi B) := by
  have hd : ∀ c x : ℝ, HasDerivAt (fun x => -phi x - c * Phi x) ((x - c) * phi x) x := fun c x => by
    refine ((hasDerivAt_phi x).neg.sub ((hasDerivAt_Phi x).const_mul c)).congr_deriv ?_
    ring
  constructor
  · have : StrictMonoOn (fun x => -phi x - B * Phi x) (Icc B A) := by
      refine strictMonoOn_of_deriv_pos (convex_Icc _ _) (fun x _ => (hd B x).continuousAt.continuousWithinAt) fun x hx => ?_
      rw [interior_Icc] at hx
      rw [(hd B x).deriv]
      exact mul_pos (sub_pos.2 hx.1) (phi_pos x)
    have := this (left_mem_Icc.2 h.le) (right_mem_Icc.2 h.le) h
    simp only at this
    linarith
  · have : StrictAntiOn (fun x => -phi x - A * Phi x) (Icc B A) := by
      refine strictAntiOn_of_deriv_neg (convex_Icc _ _) (fun x _ => (hd A x).continuousAt.continuousWithinAt) fun x hx => ?_
      rw [interior_Icc] at hx
      rw [(hd A x).deriv]
      exact mul_neg_of_neg_of_pos (sub_neg.2 hx.2) (phi_pos x)
    have := this (left_mem_Icc.2 h.le) (right_mem_Icc.2 h.le) h
    simp only at this
    linarith

/-- The pull of a rating is below the one towards its upper threshold. -/
theorem ordD_lt (ht : t.Pairwise (· < ·)) (hs : 0 < sigma) {k : Nat} (h1 : 1 ≤ k) {s : ℝ} (hk : t[k - 1]? = some s) (f : ℝ) :
    ordD t sigma k f * sigma < (s - f) / sigma := by
  have hlt : k - 1 < t.length := (List.getElem?_eq_some_iff.1 hk).1
  have h2 : k ≤ t.length + 1 := by omega
  have hpos := ordProb_gt_zero ht hs h1 h2 f
  have hP : ordP t sigma k f = phi ((s - f) / sigma) := by
    obtain ⟨k, rfl⟩ : ∃ j, k = j + 1 := ⟨k - 1, by omega⟩
    simp only [Nat.add_sub_cancel] at hk
    simp [ordP, hk]
  have e : ordD t sigma k f * sigma = (ordP t sigma (k - 1) f - phi ((s - f) / sigma)) / ordProb t sigma k f := by
    unfold ordD
    rw [hP]
    field_simp
    ring
  rw [e, div_lt_iff₀ hpos]
  rcases ordProb_cases ht sigma h1 h2 with ⟨rfl, -, h⟩ | ⟨r, hr, hk1, h⟩ | ⟨r, -, -, hk1, h⟩ | ⟨r, s', hr, hs', h2k, hrs, h⟩
  · simp at hlt
  · rw [h]
    obtain rfl : r = s := by rw [hk] at hr; exact (Option.some.inj hr).symm
    have : ordP t sigma (k - 1) f = 0 := by rw [hk1]; rfl
    rw [this]
    linarith [mills ((r - f) / sigma)]
  · omega
  · rw [h]
    obtain rfl : s' = s := by rw [hk] at hs'; exact (Option.some.inj hs').symm
    have : ordP t sigma (k - 1) f = phi ((r - f) / sigma) := by
      obtain ⟨k, rfl⟩ : ∃ j, k = j + 2 := ⟨k - 2, by omega⟩
      simp only [Nat.add_sub_cancel] at hr
      simp [ordP, hr]
    rw [this]
    exact (interval_mean (show (r - f) / sigma < (s' - f) / sigma by gcongr)).2

/-- The pull of a rating is above the one towards its lower threshold. -/
theorem lt_ordD (ht : t.Pairwise (· < ·)) (hs : 0 < sigma) {k : Nat} (h1 : 2 ≤ k) {r : ℝ} (hk : t[k - 2]? = some r) (f : ℝ) :
    (r - f) / sigma < ordD t sigma k f * sigma := by
  have hlt : k - 2 < t.length := (List.getElem?_eq_some_iff.1 hk).1
  have h2 : k ≤ t.length + 1 := by omega
  have hpos := ordProb_gt_zero ht hs (show 1 ≤ k by omega) h2 f
  have hP : ordP t sigma (k - 1) f = phi ((r - f) / sigma) := by
    obtain ⟨k, rfl⟩ : ∃ j, k = j + 2 := ⟨k - 2, by omega⟩
    simp only [Nat.add_sub_cancel] at hk
    simp [ordP, hk]
  have e : ordD t sigma k f * sigma = (phi ((r - f) / sigma) - ordP t sigma k f) / ordProb t sigma k f := by
    unfold ordD
    rw [hP]
    field_simp
    ring
  rw [e, lt_div_iff₀ hpos]
  rcases ordProb_cases ht sigma (show 1 ≤ k by omega) h2 with ⟨rfl, -, h⟩ | ⟨r', hr, hk1, h⟩ | ⟨r', hr, -, hk1, h⟩ |
    ⟨r', s', hr, hs', h2k, hrs, h⟩
  · simp at hlt
  · omega
  · rw [h]
    obtain rfl : r' = r := by rw [hk] at hr; exact (Option.some.inj hr).symm
    have : ordP t sigma k f = 0 := by
      obtain ⟨k, rfl⟩ : ∃ j, k = j + 1 := ⟨k - 1, by omega⟩
      have : t[k]? = none := by simp; omega
      simp [ordP, this]
    rw [this]
    have := mills (-((r' - f) / sigma))
    rw [Phi_neg, phi_neg] at this
    linarith
  · rw [h]
    obtain rfl : r' = r := by rw [hk] at hr; exact (Option.some.inj hr).symm
    have : ordP t sigma k f = phi ((s' - f) / sigma) := by
      obtain ⟨k, rfl⟩ : ∃ j, k = j + 1 := ⟨k - 1, by omega⟩
      simp only [Nat.add_sub_cancel] at hs'
      simp [ordP, hs']
    rw [this]
    exact (interval_mean (show (r' - f) / sigma < (s' - f) / sigma by gcongr)).1

/-- A higher rating pulls more. -/
theorem ordD_strictMono (ht : t.Pairwise (· < ·)) (hs : 0 < sigma) {k k' : Nat} (h1 : 1 ≤ k) (hkk : k < k')
    (h2 : k' ≤ t.length + 1) (f : ℝ) : ordD t sigma k f < ordD t sigma k' f := by
  have l1 : k - 1 < t.length := by omega
  have l2 : k' - 2 < t.length := by omega
  have a := ordD_lt ht hs h1 (s := t[k - 1]) (by simp [l1]) f
  have b := lt_ordD ht hs (show 2 ≤ k' by omega) (r := t[k' - 2]) (by simp [l2]) f
  have c : t[k - 1] ≤ t[k' - 2] := by
    rcases Nat.lt_or_ge (k - 1) (k' - 2) with h | h
    · exact (List.pairwise_iff_getElem.1 ht _ _ l1 l2 h).le
    · have : k - 1 = k' - 2 := by omega
      simp [this]
  have d : (t[k - 1] - f) / sigma ≤ (t[k' - 2] - f) / sigma := by gcongr
  exact lt_of_mul_lt_mul_right (a.trans_le d |>.trans b) hs.le

end Ratings

open Matrix

variable {n : Nat}

/-- Gradient of the ordinal log-likelihood. -/
noncomputable def ordGradV (t : List ℝ) (sigma : ℝ) (y : List (Nat × Fin n)) (F : Fin n → ℝ) : Fin n → ℝ :=
  fun i => (y.map fun p => if p.2 = i then ordD t sigma p.1 (F p.2) else 0).sum

theorem isGradientAt_ordLogLik {t : List ℝ} (ht : t.Pairwise (· < ·)) {sigma : ℝ} (hs : 0 < sigma) (y : List (Nat × Fin n))
    (hy : RatingsValid t y) (F : Fin n → ℝ) : IsGradientAt (ordLogLik t sigma y) (ordGradV t sigma y F) F :=
  grad_separable y (·.2) (fun p x => Real.log (ordProb t sigma p.1 x))
    (fun p x => ordD t sigma p.1 x) F fun p hp => hasDerivAt_logOrdProb _ _ _ _
      (ordProb_gt_zero ht hs (hy p hp).1 (hy p hp).2 _).ne'

theorem ordLogLik_concave {t : List ℝ} (ht : t.Pairwise (· < ·)) {sigma : ℝ} (hs : 0 < sigma) (y : List (Nat × Fin n))
    (hy : RatingsValid t y) : ConcaveOn ℝ univ (ordLogLik t sigma y) := by
  refine ⟨convex_univ, fun F _ G _ a b ha hb hab => ?_⟩
  simp only [ordLogLik, smul_eq_mul]
  rw [← List.sum_map_mul_left, ← List.sum_map_mul_left, ← List.sum_map_add]
  refine List.sum_le_sum fun p hp => ?_
  have := (concave_logOrdProb ht hs (hy p hp).1 (hy p hp).2).2 (mem_univ (F p.2)) (mem_univ (G p.2)) ha hb hab
  simpa only [smul_eq_mul, Pi.add_apply, Pi.smul_apply] using this

theorem ordLogLik_nonpos {t : List ℝ} (ht : t.Pairwise (· < ·)) {sigma : ℝ} (hs : 0 < sigma) (y : List (Nat × Fin n))
    (hy : RatingsValid t y) (F : Fin n → ℝ) : ordLogLik t sigma y F ≤ 0 := by
  unfold ordLogLik
  have := sum_map_nonneg (l := y) (f := fun p => -Real.log (ordProb t sigma p.1 (F p.2))) fun p hp =>
    neg_nonneg.2 (Real.log_nonpos (ordProb_gt_zero ht hs (hy p hp).1 (hy p hp).2 _).le
      (ordProb_le_one ht (hy p hp).1 (hy p hp).2 _))
  rw [← sum_map_neg] at this
  linarith

/-- The maximum of a concave log-likelihood plus a centred normal log-density is the fixed point of "prior covariance
times gradient". -/
theorem max_iff_fixed {K : Matrix (Fin n) (Fin n) ℝ} (hK : K.PosDef) {L : (Fin n → ℝ) → ℝ}
    (hL : ConcaveOn ℝ univ L) {m g : Fin n → ℝ} (hg : IsGradientAt L g m) :
    (∀ G, L G - 1 / 2 * (G ⬝ᵥ (K⁻¹ *ᵥ G)) ≤ L m - 1 / 2 * (m ⬝ᵥ (K⁻¹ *ᵥ m))) ↔ m = K *ᵥ g := by
  have hu : IsUnit K.det := (Matrix.isUnit_iff_isUnit_det _).1 hK.isUnit
  have hs : (K⁻¹)ᵀ = K⁻¹ := inv_symm hK
  have hfix : m = K *ᵥ g ↔ g - K⁻¹ *ᵥ m = 0 := by
    rw [sub_eq_zero]
    constructor
    · intro h
      conv_rhs => rw [h]
      rw [mulVec_mulVec, nonsing_inv_mul _ hu, one_mulVec]
    · intro h
      rw [h, mulVec_mulVec, mul_nonsing_inv _ hu, one_mulVec]
  rw [hfix]
  constructor
  · intro h
    have hg := hg.add' (isGradientAt_quadratic hs m)
    have hloc : IsLocalMax (fun x => L x + -(1 / 2 * (x ⬝ᵥ (K⁻¹ *ᵥ x)))) m :=
      Filter.Eventually.of_forall fun G => by have := h G; simp only; linarith
    have h0 := hloc.hasFDerivAt_eq_zero hg
    funext i
    have := congrArg (fun (L : (Fin n → ℝ) →L[ℝ] ℝ) => L (Pi.single i 1)) h0
    simp [Pi.single_apply] at this
    simp only [Pi.sub_apply, Pi.zero_apply]
    linarith
  · intro h G
    have h1 := concave_tangent hL hg G
    have h2 := hK.inv.posSemidef.dotProduct_mulVec_nonneg (G - m)
    simp only [star_trivial] at h2
    have hcross : G ⬝ᵥ (K⁻¹ *ᵥ m) = m ⬝ᵥ (K⁻¹ *ᵥ G) := by
      rw [dotProduct_mulVec, ← mulVec_transpose, hs, dotProduct_comm]
    rw [sub_eq_zero] at h
    rw [h, dotProduct_sub, dotProduct_comm (K⁻¹ *ᵥ m) G, dotProduct_comm (K⁻¹ *ᵥ m) m] at h1
    rw [mulVec_sub, dotProduct_sub, sub_dotProduct, sub_dotProduct] at h2
    linarith

theorem isOrdMode_iff {sigma so : ℝ} {t : List ℝ} {pairs : List (IPair n)} {y : List (Nat × Fin n)}
    {K : Matrix (Fin n) (Fin n) ℝ} (hK : K.PosDef) {m : Fin n → ℝ} : IsOrdMode sigma t so pairs y K m ↔
      ∀ G, pairOrdLogLik sigma t so pairs y G - 1 / 2 * (G ⬝ᵥ (K⁻¹ *ᵥ G)) ≤
        pairOrdLogLik sigma t so pairs y m - 1 / 2 * (m ⬝ᵥ (K⁻¹ *ᵥ m)) := by
  unfold IsOrdMode
  rw [logPosterior_eq hK]
  refine forall_congr' fun G => ?_
  constructor <;> intro h <;> simp only at h ⊢ <;> linarith

end Lop
