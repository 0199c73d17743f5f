import Verif.Proofs.Assign
import Verif.Proofs.Normal

/-! # Lemmas about the ordinal probit -/

namespace Lop

open Spec

variable {m : Nat}

/-- The value of `ordCdf` when no exception is raised. -/
noncomputable def ordC (o : OrdHyper ℝ) (k : Nat) (f : ℝ) : ℝ :=
  if k = o.n then 1 else if k ≠ 0 then
    match o.b[k]? with
    | some b => bndCdf (bndZ (1 / o.sigma) f b)
    | none => 0
  else 0

theorem ordCdf_ok {o : OrdHyper ℝ} (hb : o.b.length = o.n + 1) {k : Nat} (hk : k ≤ o.n) (f : ℝ) :
    ordCdf o k f = .ok (ordC o k f) := by
  unfold ordCdf ordC
  split
  · rfl
  · split
    · have : k < o.b.length := by omega
      simp [this]
    · rfl

theorem ordCdf_error {o : OrdHyper ℝ} (hb : o.b.length = o.n + 1) {k : Nat} (hk : o.n < k) (f : ℝ) :
    ordCdf o k f = .error .indexError := by
  unfold ordCdf
  rw [if_neg (by omega), if_pos (by omega)]
  have : o.b[k]? = none := by simp; omega
  simp [this]

theorem ordLik_ok {o : OrdHyper ℝ} (hb : o.b.length = o.n + 1) {k : Nat} (hk : k < o.n) (f : ℝ) :
    ordLik o k f = .ok (ordC o (k + 1) f - ordC o k f) := by
  unfold ordLik
  rw [ordCdf_ok hb (by omega), ordCdf_ok hb (by omega)]
  rfl

theorem ordLik_error {o : OrdHyper ℝ} (hb : o.b.length = o.n + 1) {k : Nat} (hk : o.n ≤ k) (f : ℝ) :
    ordLik o k f = .error .indexError := by
  unfold ordLik
  rw [ordCdf_error hb (by omega)]
  rfl

theorem mapM_ok {α β : Type} (l : List α) (g : α → Except PyErr β) (h : α → β)
    (hg : ∀ a ∈ l, g a = .ok (h a)) : l.mapM g = .ok (l.map h) := by
  induction l with
  | nil => rfl
  | cons a l ih =>
    rw [List.mapM_cons, hg a (by simp), ih fun b hb => hg b (by simp [hb])]
    rfl

theorem mapM_error {α β : Type} (l : List α) (g : α → Except PyErr β) (e : PyErr)
    (hg : ∀ a ∈ l, g a = .error e ∨ ∃ b, g a = .ok b) (he : ∃ a ∈ l, g a = .error e) :
    l.mapM g = .error e := by
  induction l with
  | nil => simp at he
  | cons a l ih =>
    rw [List.mapM_cons]
    rcases hg a (by simp) with h | ⟨b, h⟩
    · rw [h]; rfl
    · rw [h]
      have : ∃ a ∈ l, g a = .error e := by
        obtain ⟨c, hc, hce⟩ := he
        rcases List.mem_cons.1 hc with rfl | hc
        · rw [h] at hce; cases hce
        · exact ⟨c, hc, hce⟩
      show (l.mapM g >>= _) = _
      rw [ih (fun b hb => hg b (by simp [hb])) this]
      rfl

theorem ordLikEach_ok {o : OrdHyper ℝ} (hb : o.b.length = o.n + 1) (y : List (Int × Fin m))
    (F : Fin m → ℝ) (hy : ∀ p ∈ y, 1 ≤ p.1 ∧ p.1 ≤ o.n) :
    ordLikEach o y F = .ok (y.map fun p => ordC o p.1.toNat (F p.2) - ordC o (p.1.toNat - 1) (F p.2)) := by
  unfold ordLikEach
  rw [if_neg]
  · refine mapM_ok _ _ _ fun p hp => ?_
    obtain ⟨h1, h2⟩ := hy p hp
    rw [ordLik_ok hb (by omega)]
    have e1 : (p.1 - 1).toNat = p.1.toNat - 1 := by omega
    have e2 : p.1.toNat - 1 + 1 = p.1.toNat := by omega
    rw [e1, e2]
  · simp only [List.any_eq_true, decide_eq_true_eq, not_exists, not_and]
    intro p hp
    have := (hy p hp).1
    omega

theorem stdNormCdf_nonneg (x : ℝ) : 0 ≤ stdNormCdf x := (stdNormCdf_pos x).le

theorem stdNormCdf_le_one (x : ℝ) : stdNormCdf x ≤ 1 := (Phi_lt_one _).le

theorem stdNormCdf_mono {x y : ℝ} (h : x ≤ y) : stdNormCdf x ≤ stdNormCdf y :=
  Phi_strictMono.monotone (npClip_mono h)

theorem bndCdf_mem (b : Bnd ℝ) : 0 ≤ bndCdf b ∧ bndCdf b ≤ 1 := by
  cases b <;> simp only [bndCdf]
  · exact ⟨(Phi_pos _).le, (Phi_lt_one _).le⟩
  · exact ⟨stdNormCdf_nonneg _, stdNormCdf_le_one _⟩
  · exact ⟨(Phi_pos _).le, (Phi_lt_one _).le⟩

theorem clip_range (x : ℝ) : -30 ≤ npClip (-30) 100 x ∧ npClip (-30) 100 x ≤ 100 := by
  unfold npClip
  refine ⟨le_min (le_max_right _ _) (by norm_num), min_le_right _ _⟩

theorem bndCdf_mono {isig f : ℝ} (hs : 0 < isig) {a b : Bnd ℝ} (h : bndVal a ≤ bndVal b) :
    bndCdf (bndZ isig f a) ≤ bndCdf (bndZ isig f b) := by
  have hm := Phi_strictMono.monotone
  cases a <;> cases b <;> simp only [bndZ, bndCdf, bndVal, if_pos hs.le] at h ⊢
  · exact le_rfl
  · exact hm (clip_range _).1
  · exact hm (by norm_num)
  · simp at h
  · refine stdNormCdf_mono (mul_le_mul_of_nonneg_left ?_ hs.le)
    have := EReal.coe_le_coe_iff.1 h
    linarith
  · exact hm (clip_range _).2
  · simp at h
  · simp at h
  · exact le_rfl

theorem bndCdf_anti {isig f g : ℝ} (hs : 0 < isig) (hfg : f ≤ g) (b : Bnd ℝ) :
    bndCdf (bndZ isig g b) ≤ bndCdf (bndZ isig f b) := by
  cases b <;> simp only [bndZ, bndCdf, if_pos hs.le]
  · exact le_rfl
  · exact stdNormCdf_mono (mul_le_mul_of_nonneg_left (by linarith) hs.le)
  · exact le_rfl

theorem ordC_anti {o : OrdHyper ℝ} (hs : 0 < o.sigma) (k : Nat) {f g : ℝ} (hfg : f ≤ g) :
    ordC o k g ≤ ordC o k f := by
  unfold ordC
  split
  · exact le_rfl
  · split
    · split
      · exact bndCdf_anti (by positivity) hfg _
      · exact le_rfl
    · exact le_rfl

theorem ordC_mem (o : OrdHyper ℝ) (k : Nat) (f : ℝ) : 0 ≤ ordC o k f ∧ ordC o k f ≤ 1 := by
  unfold ordC
  split
  · simp
  · split
    · split
      · exact bndCdf_mem _
      · simp
    · simp

theorem ordC_mono {o : OrdHyper ℝ} (hs : 0 < o.sigma) (hb : o.b.length = o.n + 1)
    (hsort : BoundariesSorted o.b) {k : Nat} (hk : k < o.n) (f : ℝ) : ordC o k f ≤ ordC o (k + 1) f := by
  by_cases h1 : k + 1 = o.n
  · have : ordC o (k + 1) f = 1 := by simp [ordC, h1]
    rw [this]; exact (ordC_mem o k f).2
  by_cases h0 : k = 0
  · have : ordC o k f = 0 := by
      have : 0 ≠ o.n := by omega
      simp [ordC, h0, this]
    rw [this]; exact (ordC_mem o _ f).1
  have hl : k + 1 < o.b.length := by omega
  have hl' : k < o.b.length := by omega
  have e1 : ordC o k f = bndCdf (bndZ (1 / o.sigma) f o.b[k]) := by
    simp [ordC, h0, hl', show k ≠ o.n by omega]
  have e2 : ordC o (k + 1) f = bndCdf (bndZ (1 / o.sigma) f o.b[k + 1]) := by
    simp [ordC, h1, hl]
  rw [e1, e2]
  refine bndCdf_mono (by positivity) ?_
  exact List.pairwise_iff_getElem.1 hsort k (k + 1) hl' hl (by omega)

theorem telescope (c : Nat → ℝ) (n : Nat) : ∀ r ≤ n,
    (((List.range n).map fun y => c (y + 1) - c y).drop r).sum = c n - c r := by
  intro r hr
  induction n with
  | zero => simp; rw [show r = 0 by omega]; simp
  | succ n ih =>
    rcases Nat.lt_or_ge n r with h | h
    · rw [show r = n + 1 by omega, List.drop_eq_nil_of_le (by simp)]; simp
    · rw [List.range_succ, List.map_append, List.drop_append_of_le_length (by simpa using h),
        List.sum_append, ih h]
      simp

/-! ## Derivatives -/

theorem Spec.HasThresholds.length {o : OrdHyper ℝ} {t : List ℝ} (h : HasThresholds o t) :
    o.b.length = o.n + 1 := by
  rw [h.1, h.2]; simp

theorem Spec.HasThresholds.getElem {o : OrdHyper ℝ} {t : List ℝ} (h : HasThresholds o t) {k : Nat}
    (hk : k < t.length) : o.b[k + 1]? = some (.fin t[k]) := by
  rw [h.1]
  simp only [List.singleton_append, List.cons_append, List.getElem?_cons_succ]
  rw [List.getElem?_append_left (by simpa using hk)]
  simp [hk]

theorem ordC_eq {o : OrdHyper ℝ} {t : List ℝ} (h : HasThresholds o t) {k : Nat} (hk : k ≤ o.n) (f : ℝ)
    (hz : ∀ r, 1 ≤ k → t[k - 1]? = some r → -30 ≤ (r - f) / o.sigma ∧ (r - f) / o.sigma ≤ 100) :
    ordC o k f = ordCum t o.sigma k f := by
  have hn := h.2
  cases k with
  | zero =>
    have : 0 ≠ o.n := by omega
    simp [ordC, ordCum, this]
  | succ k =>
    rcases Nat.lt_or_ge k t.length with hlt | hge
    · have e := h.getElem hlt
      obtain ⟨h1, h2⟩ := hz t[k] (by omega) (by simp [hlt])
      have hne : k + 1 ≠ o.n := by omega
      simp only [ordC, hne, if_false, ne_eq, Nat.add_eq_zero_iff, one_ne_zero, and_false,
        not_false_eq_true, if_true, e, ordCum, List.getElem?_eq_getElem hlt, bndZ, bndCdf]
      rw [show 1 / o.sigma * (t[k] - f) = (t[k] - f) / o.sigma by ring, stdNormCdf_of_mem h1 h2]
    · have : k + 1 = o.n := by omega
      simp [ordC, ordCum, this, List.getElem?_eq_none hge]

theorem ordPdf_eq {o : OrdHyper ℝ} {t : List ℝ} (h : HasThresholds o t) {k : Nat} (hk : k ≤ o.n) (f : ℝ) :
    ordPdf o k f = .ok (ordP t o.sigma k f) := by
  have hn := h.2
  cases k with
  | zero => simp [ordPdf, ordP]
  | succ k =>
    rcases Nat.lt_or_ge k t.length with hlt | hge
    · have e := h.getElem hlt
      have hne : k + 1 ≠ o.n := by omega
      simp only [ordPdf, hne, ne_eq, Nat.add_eq_zero_iff, one_ne_zero, and_false,
        not_false_eq_true, and_self, if_true, e, ordP, List.getElem?_eq_getElem hlt, bndZ, bndPdf]
      rw [show 1 / o.sigma * (t[k] - f) = (t[k] - f) / o.sigma by ring, stdNormPdf_eq]
    · have : k + 1 = o.n := by omega
      simp [ordPdf, ordP, this, List.getElem?_eq_none hge]

theorem hasDerivAt_ordCum (t : List ℝ) (sigma : ℝ) (k : Nat) (f : ℝ) :
    HasDerivAt (ordCum t sigma k) (-(1 / sigma) * ordP t sigma k f) f := by
  cases k with
  | zero => exact (hasDerivAt_const f (0 : ℝ)).congr_deriv (by simp [ordP])
  | succ k =>
    cases ht : t[k]? with
    | none =>
      have : ordCum t sigma (k + 1) = fun _ => 1 := by funext x; simp [ordCum, ht]
      rw [this]
      simpa [ordP, ht] using hasDerivAt_const f (1 : ℝ)
    | some r =>
      have : ordCum t sigma (k + 1) = fun x => Phi ((r - x) / sigma) := by funext x; simp [ordCum, ht]
      rw [this]
      have h1 : HasDerivAt (fun x : ℝ => (r - x) / sigma) (-1 / sigma) f :=
        ((hasDerivAt_id f).const_sub r).div_const sigma
      have := (hasDerivAt_Phi ((r - f) / sigma)).comp f h1
      refine this.congr_deriv ?_
      simp only [ordP, ht]; ring

theorem hasDerivAt_ordP (t : List ℝ) (sigma : ℝ) (k : Nat) (f : ℝ) :
    HasDerivAt (ordP t sigma k) (1 / sigma * ordZP t sigma k f) f := by
  cases k with
  | zero => exact (hasDerivAt_const f (0 : ℝ)).congr_deriv (by simp [ordZP])
  | succ k =>
    cases ht : t[k]? with
    | none =>
      have : ordP t sigma (k + 1) = fun _ => 0 := by funext x; simp [ordP, ht]
      rw [this]
      simpa [ordZP, ht] using hasDerivAt_const f (0 : ℝ)
    | some r =>
      have : ordP t sigma (k + 1) = fun x => phi ((r - x) / sigma) := by funext x; simp [ordP, ht]
      rw [this]
      have h1 : HasDerivAt (fun x : ℝ => (r - x) / sigma) (-1 / sigma) f :=
        ((hasDerivAt_id f).const_sub r).div_const sigma
      have := (hasDerivAt_phi ((r - f) / sigma)).comp f h1
      refine this.congr_deriv ?_
      simp only [ordZP, ht]; ring

/-- First derivative of the log-probability of a rating. -/
noncomputable def ordD (t : List ℝ) (sigma : ℝ) (k : Nat) (f : ℝ) : ℝ :=
  -(1 / sigma) * (ordP t sigma k f - ordP t sigma (k - 1) f) / ordProb t sigma k f

/-- Second derivative of the log-probability of a rating. -/
noncomputable def ordD2 (t : List ℝ) (sigma : ℝ) (k : Nat) (f : ℝ) : ℝ :=
  -(ordD t sigma k f ^ 2 +
    (1 / sigma) ^ 2 * (ordZP t sigma k f - ordZP t sigma (k - 1) f) / ordProb t sigma k f)

theorem hasDerivAt_ordProb (t : List ℝ) (sigma : ℝ) (k : Nat) (f : ℝ) :
    HasDerivAt (ordProb t sigma k) (-(1 / sigma) * (ordP t sigma k f - ordP t sigma (k - 1) f)) f := by
  refine ((hasDerivAt_ordCum t sigma k f).sub (hasDerivAt_ordCum t sigma (k - 1) f)).congr_deriv ?_
  ring

theorem hasDerivAt_logOrdProb (t : List ℝ) (sigma : ℝ) (k : Nat) (f : ℝ) (h : ordProb t sigma k f ≠ 0) :
    HasDerivAt (fun x => Real.log (ordProb t sigma k x)) (ordD t sigma k f) f :=
  (hasDerivAt_ordProb t sigma k f).log h

theorem hasDerivAt_ordD (t : List ℝ) (sigma : ℝ) (k : Nat) (f : ℝ) (h : ordProb t sigma k f ≠ 0) :
    HasDerivAt (ordD t sigma k) (ordD2 t sigma k f) f := by
  have h1 := ((hasDerivAt_ordP t sigma k f).sub (hasDerivAt_ordP t sigma (k - 1) f)).const_mul (-(1 / sigma))
  have h2 := h1.div (hasDerivAt_ordProb t sigma k f) h
  refine h2.congr_deriv ?_
  simp only [ordD2, ordD, Pi.sub_apply]
  field_simp
  ring

/-- The labels as stored: integer ratings. -/
def castLabels (y : List (Nat × Fin m)) : List (Int × Fin m) := y.map fun p => ((p.1 : Int), p.2)

/-- What the code uses as second derivative. -/
noncomputable def codeD2 (t : List ℝ) (sigma : ℝ) (k : Nat) (f : ℝ) : ℝ :=
  -(ordD t sigma k f ^ 2 +
    (1 / sigma) ^ 2 * (ordP t sigma k f - ordP t sigma (k - 1) f) / ordProb t sigma k f)

theorem mapM_some {α β : Type} (l : List α) (g : α → Option β) (h : α → β)
    (hg : ∀ a ∈ l, g a = some (h a)) : l.mapM g = some (l.map h) := by
  induction l with
  | nil => rfl
  | cons a l ih =>
    rw [List.mapM_cons, hg a (by simp), ih fun b hb => hg b (by simp [hb])]
    rfl

theorem ordLikEach_eq {o : OrdHyper ℝ} {t : List ℝ} (h : HasThresholds o t) (y : List (Nat × Fin m))
    (F : Fin m → ℝ) (hy : ∀ p ∈ y, 1 ≤ p.1 ∧ p.1 ≤ o.n) (hr : OrdInRange t o.sigma y F) :
    ordLikEach o (castLabels y) F = .ok (y.map fun p => ordProb t o.sigma p.1 (F p.2)) := by
  rw [ordLikEach_ok h.length]
  · simp only [castLabels, List.map_map]
    congr 1
    refine List.map_congr_left fun p hp => ?_
    obtain ⟨h1, h2⟩ := hy p hp
    simp only [Function.comp, Int.toNat_natCast, ordProb]
    rw [ordC_eq h h2 _ fun r _ hr' => hr p hp _ r (.inl (by omega)) hr',
      ordC_eq h (by omega) _ fun r hk hr' => hr p hp _ r (.inr (by omega)) hr']
  · intro p hp
    obtain ⟨q, hq, rfl⟩ := List.mem_map.1 hp
    have := hy q hq
    simp only
    omega

theorem ordDerivatives_eq {o : OrdHyper ℝ} {t : List ℝ} (h : HasThresholds o t) {eps : ℝ} (heps : 0 < eps)
    (y : List (Nat × Fin m)) (F : Fin m → ℝ) (hy : ∀ p ∈ y, 1 ≤ p.1 ∧ p.1 ≤ o.n)
    (hr : OrdInRange t o.sigma y F) (hl : ∀ p ∈ y, eps ≤ ordProb t o.sigma p.1 (F p.2)) :
    ordDerivatives o eps (castLabels y) F =
      .ok (some (assignGrid (y.map fun p => (p.2, -codeD2 t o.sigma p.1 (F p.2))),
        assignVec (y.map fun p => (p.2, ordD t o.sigma p.1 (F p.2))), ordLogLik t o.sigma y F)) := by
  have hzip : (castLabels y).zip (y.map fun p => ordProb t o.sigma p.1 (F p.2)) =
      y.map fun p => (((p.1 : Int), p.2), ordProb t o.sigma p.1 (F p.2)) := by
    simp only [castLabels, List.zip_map']
  have h1 : ((castLabels y).zip (y.map fun p => ordProb t o.sigma p.1 (F p.2))).mapM
      (fun (p, l) => ordDerv1 o eps (p.1 - 1).toNat (F p.2) l) =
      .ok (y.map fun p => some (ordD t o.sigma p.1 (F p.2), codeD2 t o.sigma p.1 (F p.2))) := by
    rw [hzip, List.mapM_map]
    refine mapM_ok _ _ _ fun p hp => ?_
    obtain ⟨hp1, hp2⟩ := hy p hp
    simp only [Function.comp, ordDerv1]
    rw [if_neg (not_lt.2 (hl p hp))]
    have e1 : ((p.1 : Int) - 1).toNat = p.1 - 1 := by omega
    have e2 : p.1 - 1 + 1 = p.1 := by omega
    rw [e1, e2, ordPdf_eq h hp2, ordPdf_eq h (by omega)]
    simp only [bind, Except.bind, pure, Except.pure, ordD, codeD2]
  unfold ordDerivatives
  rw [ordLikEach_eq h y F hy hr]
  simp only [bind, Except.bind]
  erw [h1]
  simp only [pure, Except.pure, Option.bind]
  rw [mapM_some _ _ (fun e => e.getD (0, 0)) (by
    intro a ha
    obtain ⟨p, _, rfl⟩ := List.mem_map.1 ha
    rfl)]
  rw [mapM_some _ _ (fun e => e.getD 0) (by
    intro a ha
    obtain ⟨l, hl', rfl⟩ := List.mem_map.1 ha
    obtain ⟨p, hp, rfl⟩ := List.mem_map.1 hl'
    have : 0 < ordProb t o.sigma p.1 (F p.2) := lt_of_lt_of_le heps (hl p hp)
    simp [npLog, this])]
  have e3 : (castLabels y).map (·.2) = y.map (·.2) := by simp [castLabels]
  simp only [e3, List.map_map, List.zip_map', ordLogLik, Function.comp_def]
  congr 5
  refine List.map_congr_left fun p hp => ?_
  have : 0 < ordProb t o.sigma p.1 (F p.2) := lt_of_lt_of_le heps (hl p hp)
  simp [npLog, this]

end Lop
