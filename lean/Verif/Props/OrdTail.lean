import Verif.Proofs.OrdTail

/-! # C40: the formulas for small likelihoods -/

namespace Lop.Props

open Lop Lop.Spec

variable {m : Nat}

theorem sum_single {α : Type*} [DecidableEq α] (y : List α) (hnd : y.Nodup) {p : α} (hp : p ∈ y) (c : ℝ) :
    (y.map fun q => if q = p then c else 0).sum = c := by
  induction y with
  | nil => cases hp
  | cons a y ih =>
    rw [List.nodup_cons] at hnd
    rw [List.map_cons, List.sum_cons]
    rcases List.mem_cons.1 hp with rfl | hp
    · rw [if_pos rfl, List.sum_eq_zero, add_zero]
      intro x hx
      obtain ⟨q, hq, rfl⟩ := List.mem_map.1 hx
      refine if_neg ?_
      rintro rfl
      exact hnd.1 hq
    · have hne : a ≠ p := by
        rintro rfl
        exact hnd.1 hp
      rw [if_neg hne, zero_add]
      exact ih hnd.2 hp

theorem ordDist_cases {t : List ℝ} (hsort : t.Pairwise (· < ·)) {k : Nat} {f : ℝ} (h : 0 < ordDist t k f) :
    (∃ j, ∃ hj : j < t.length, k = j + 2 ∧ f < t[j] ∧ ordDist t k f = t[j] - f) ∨
    (∃ j, ∃ hj : j < t.length, k = j + 1 ∧ t[j] < f ∧ ordDist t k f = f - t[j]) := by
  have hcases := lt_max_iff.1 h
  rcases hcases with h1 | h1
  · match k, h1 with
    | j + 2, h1 =>
      cases hj : t[j]? with
      | none => simp [hj] at h1
      | some a =>
        obtain ⟨hlt, rfl⟩ := List.getElem?_eq_some_iff.1 hj
        simp only [hj] at h1
        refine .inl ⟨j, hlt, rfl, by linarith, ?_⟩
        unfold ordDist
        simp only [hj]
        refine max_eq_left ?_
        cases hj' : t[j + 1]? with
        | none => simpa using h1.le
        | some b =>
          obtain ⟨hlt', rfl⟩ := List.getElem?_eq_some_iff.1 hj'
          have := List.pairwise_iff_getElem.1 hsort j (j + 1) hlt hlt' (by omega)
          simp only
          linarith
    | 0, h1 => simp at h1
    | 1, h1 => simp at h1
  · match k, h1 with
    | 0, h1 => simp at h1
    | j + 1, h1 =>
      cases hj : t[j]? with
      | none => simp [hj] at h1
      | some a =>
        obtain ⟨hlt, rfl⟩ := List.getElem?_eq_some_iff.1 hj
        simp only [hj] at h1
        refine .inr ⟨j, hlt, rfl, by linarith, ?_⟩
        unfold ordDist
        simp only [hj]
        refine max_eq_right ?_
        rcases j with _ | i
        · simpa using h1.le
        · have hi : i < t.length := by omega
          have := List.pairwise_iff_getElem.1 hsort i (i + 1) hi hlt (by omega)
          simp only [List.getElem?_eq_getElem hi]
          linarith

/-- C40, small likelihoods: for increasing thresholds and pairwise different points, when every label whose likelihood
is below `eps` has its value outside the interval of the rating, `derivatives` returns finite numbers. A label with a
likelihood of at least `eps` has the exact first derivative; for the others the first derivative is wrong by at most
`2/d` and the entry of `W` by at most `3/d²`, with `d` the distance of the value from the interval. -/
theorem C40_small_likelihood_partial (o : OrdHyper ℝ) (t : List ℝ) (ht : HasThresholds o t)
    (hsort : t.Pairwise (· < ·)) (hs : 0 < o.sigma) (eps : ℝ) (y : List (Nat × Fin m)) (F : Fin m → ℝ)
    (hy : ∀ p ∈ y, 1 ≤ p.1 ∧ p.1 ≤ o.n) (hr : OrdInRange t o.sigma y F) (hnd : (y.map (·.2)).Nodup)
    (hd : ∀ p ∈ y, ordProb t o.sigma p.1 (F p.2) < eps → 0 < ordDist t p.1 (F p.2)) :
    ∃ W g ll, ordDerivatives o eps (y.map fun p => ((p.1 : Int), p.2)) F = .ok (some (W, g, ll)) ∧
      ll = ordLogLik t o.sigma y F ∧
      ∀ p ∈ y, ∃ g' : ℝ → ℝ, ∃ h' : ℝ,
        (∀ x, HasDerivAt (fun x => Real.log (ordProb t o.sigma p.1 x)) (g' x) x) ∧ HasDerivAt g' h' (F p.2) ∧
        (eps ≤ ordProb t o.sigma p.1 (F p.2) → g p.2 = g' (F p.2)) ∧
        (ordProb t o.sigma p.1 (F p.2) < eps →
          |g p.2 - g' (F p.2)| ≤ 2 / ordDist t p.1 (F p.2) ∧ |W p.2 p.2 + h'| ≤ 3 / ordDist t p.1 (F p.2) ^ 2) := by
  have hpos : ∀ p ∈ y, ∀ x, 0 < ordProb t o.sigma p.1 x := fun p hp x =>
    ordProb_pos hsort hs (hy p hp).1 (by have := (hy p hp).2; rw [ht.2] at this; exact this) x
  have key : ∀ p ∈ y, ∃ e : ℝ × ℝ,
      ordDerv1 o eps (p.1 - 1) (F p.2) (ordProb t o.sigma p.1 (F p.2)) = .ok (some (e.1, e.2)) ∧
      (eps ≤ ordProb t o.sigma p.1 (F p.2) → e.1 = ordD t o.sigma p.1 (F p.2)) ∧
      (ordProb t o.sigma p.1 (F p.2) < eps →
        |e.1 - ordD t o.sigma p.1 (F p.2)| ≤ 2 / ordDist t p.1 (F p.2) ∧
        |e.2 - ordD2 t o.sigma p.1 (F p.2)| ≤ 3 / ordDist t p.1 (F p.2) ^ 2) := by
    intro p hp
    obtain ⟨hp1, hp2⟩ := hy p hp
    rcases lt_or_ge (ordProb t o.sigma p.1 (F p.2)) eps with hl | hl
    · rcases ordDist_cases hsort (hd p hp hl) with ⟨j, hj, hk, hf, he⟩ | ⟨j, hj, hk, hf, he⟩
      · obtain ⟨d, d2, h1, h2, h3⟩ := ordDerv1_below ht hsort hs hl hj hf
        refine ⟨(d, d2), ?_, fun h => absurd hl (not_lt.2 h), fun _ => ?_⟩
        · rw [show p.1 - 1 = j + 1 by omega]; exact h1
        · rw [he, hk]; exact ⟨h2, h3⟩
      · obtain ⟨d, d2, h1, h2, h3⟩ := ordDerv1_above ht hsort hs hl hj hf
        refine ⟨(d, d2), ?_, fun h => absurd hl (not_lt.2 h), fun _ => ?_⟩
        · rw [show p.1 - 1 = j by omega]; exact h1
        · rw [he, hk]; exact ⟨h2, h3⟩
    · refine ⟨(ordD t o.sigma p.1 (F p.2), codeD2 t o.sigma p.1 (F p.2)), ?_, fun _ => rfl, fun h => absurd h (not_lt.2 hl)⟩
      unfold ordDerv1
      rw [if_neg (not_lt.2 hl), show p.1 - 1 + 1 = p.1 by omega, ordPdf_eq ht hp2, ordPdf_eq ht (by omega)]
      simp only [bind, Except.bind, pure, Except.pure, ordD, codeD2]
  choose! e he1 he2 he3 using key
  refine ⟨_, _, _, ordDerivatives_gen ht y F hy hr (fun p hp => hpos p hp _) (fun p => (e p).1) (fun p => (e p).2) he1,
    rfl, fun p hp => ⟨ordD t o.sigma p.1, ordD2 t o.sigma p.1 (F p.2),
      fun x => hasDerivAt_logOrdProb _ _ _ _ (hpos p hp x).ne', hasDerivAt_ordD _ _ _ _ (hpos p hp _).ne', ?_, ?_⟩⟩
  all_goals
    have hval : ∀ f : Nat × Fin m → ℝ, lastValue (y.map fun p => (p.2, f p)) p.2 = f p := by
      intro f
      rw [lastValue_nodup _ (by simpa [Function.comp_def] using hnd)]
      have hinj : ∀ q ∈ y, q.2 = p.2 → q = p := fun q hq h => List.inj_on_of_nodup_map hnd hq hp h
      have hnd' : y.Nodup := List.Nodup.of_map _ hnd
      rw [List.map_map]
      have : (y.map ((fun e : Fin m × ℝ => if e.1 = p.2 then e.2 else 0) ∘ fun p => (p.2, f p))) =
          y.map fun q => if q = p then f p else 0 := by
        refine List.map_congr_left fun q hq => ?_
        by_cases h : q.2 = p.2
        · simp [hinj q hq h]
        · have : q ≠ p := fun h' => h (by rw [h'])
          simp [h, this]
      rw [this]
      exact sum_single y hnd' hp (f p)
  · intro h
    rw [assignVec_eq, hval]
    exact he2 p hp h
  · intro h
    rw [assignVec_eq, hval, assignGrid_eq, if_pos rfl, hval fun p => -(e p).2]
    obtain ⟨h1, h2⟩ := he3 p hp h
    refine ⟨h1, ?_⟩
    rw [show -(e p).2 + ordD2 t o.sigma p.1 (F p.2) = -((e p).2 - ordD2 t o.sigma p.1 (F p.2)) by ring, abs_neg]
    exact h2

/-- Instance: three ratings with thresholds ∓1, a middle rating of a point with the latent value 8; the likelihood is
below 1/2 and the distance is 7, so the first derivative is wrong by at most 2/7. -/
example : HasThresholds ⟨1, 3, [.neg, .fin (-1), .fin 1, .pos]⟩ [-1, 1] ∧ ([-1, 1] : List ℝ).Pairwise (· < ·) ∧
    OrdInRange [-1, 1] 1 [(2, (0 : Fin 1))] (fun _ => 8) ∧ ordProb [-1, 1] 1 2 8 < 1 / 2 ∧ ordDist [-1, 1] 2 8 = 7 := by
  refine ⟨⟨rfl, rfl⟩, by simp, ?_, ?_, ?_⟩
  · intro p hp k r hk hr
    simp only [List.mem_singleton] at hp
    subst hp
    rcases hk with hk | hk
    · obtain rfl : k = 1 := by simpa using hk
      simp at hr; subst hr; norm_num
    · obtain rfl : k = 0 := by simpa using hk
      simp at hr; subst hr; norm_num
  · simp only [ordProb, ordCum]
    simp only [List.getElem?_cons_succ, List.getElem?_cons_zero]
    have h1 := Phi_strictMono (show ((1 - 8) / 1 : ℝ) < 0 by norm_num)
    rw [Phi_zero] at h1
    have h2 := Phi_pos ((-1 - 8) / 1)
    change Phi ((1 - 8) / 1) - Phi ((-1 - 8) / 1) < 1 / 2
    linarith
  · simp only [ordDist, List.getElem?_cons_succ, List.getElem?_cons_zero]
    norm_num

end Lop.Props
