import Verif.Proofs.UcbBand
import Verif.Props.UcbBayes

/-! # Lemma: the loop with `UCBLearner` while all bands hold -/

namespace Lop

open Spec Matrix MeasureTheory ProbabilityTheory Props

variable {d n : Nat} {Ω : Type*} [mΩ : MeasurableSpace Ω] {μ : Measure Ω} [IsProbabilityMeasure μ]

/-- Runs of the loop, and how often the regret is at most the widths of the bands at the chosen points. -/
theorem good_run (k : KExpr ℝ (Pt d)) (hok : AllLeaves (LeafOK (d = 1)) k) (hq : AllLeaves NoNoise k) {alpha s : ℝ}
    (hs : 0 < s) {S : Finset (Pt d)} {turns : Nat → UcbTurn d} (hts : ∀ t, TurnOK S 1 (turns t))
    {F : Pt d → Ω → ℝ} (hFm : ∀ x, Measurable (F x)) (hF : IsRandomFunction μ k (fun _ => 0) F) {err : Nat → Ω → ℝ} (hem : ∀ t, Measurable (err t))
    (he : IsMeasurementError μ (fun _ => 0) F (fun _ => s) err)
    (hG : ∀ (T : Nat) (z : Nat → Pt d) (x : Pt d), HasGaussianLaw (fun ω => (fun _ : Fin 1 => F x ω, fun t : Fin T => F (z t) ω + err t ω)) μ) :
    ∃ (st : Ω → Nat → GPState d) (x : Ω → Nat → Pt d),
      (∀ ω t, noisyUcb (kcov k) alpha (fun y => F y ω) (fun _ => s) (fun t => err t ω) turns t = .ok (st ω t)) ∧
      (∀ ω t, ∃ i, ucbTurn (kcov k) alpha s (fun y => F y ω + err t ω) 1 (turns t) (st ω t) = .ok ([i], st ω (t + 1)) ∧
        (turns t).cands[i]? = some (x ω t)) ∧
      (∀ ω t, x ω t ∈ S) ∧ (∀ ω t, st ω t = dataOf (fun _ => 0) (x ω) (fun _ => s) (fun j => F (x ω j) ω + err j ω) t) ∧
      ∀ T : Nat, ENNReal.ofReal (1 - T * (S.card * (2 * (1 - Phi alpha)))) ≤
        μ {ω | ∑ t ∈ Finset.range T, (bestOf (fun y => F y ω) (turns t).cands - F (x ω t) ω) ≤
          2 * alpha * ∑ t ∈ Finset.range T, Real.sqrt (atVar (kcov k) (st ω t) (x ω t))} := by
  obtain ⟨hrule, hloop⟩ := C135_ucb k hok hq alpha (s := fun _ => s) (fun _ => hs) hts
  set pick : Nat → GPState d → Pt d := fun t => ucbChoice (kcov k) alpha (turns t) with hpick
  set st : Ω → Nat → GPState d := fun ω => activeRun (fun _ => 0) pick (fun y => F y ω) (fun _ => s) fun t => err t ω with hst
  set x : Ω → Nat → Pt d := fun ω t => pick t (st ω t) with hx
  have hdata : ∀ ω t, st ω t = dataOf (fun _ => 0) (x ω) (fun _ => s) (fun j => F (x ω j) ω + err j ω) t := fun ω t =>
    follows_data (fun _ => 0) pick (fun y => F y ω) (fun _ => s) (fun t => err t ω) (x ω) fun j _ => rfl
  have hturn : ∀ ω t, ∃ i : Fin (turns t).cands.length,
      ucbTurn (kcov k) alpha s (fun y => F y ω + err t ω) 1 (turns t) (st ω t) = .ok ([i.val], st ω (t + 1)) ∧
      (turns t).cands.get i = x ω t ∧ ∀ y ∈ (turns t).cands, atMean (kcov k) (st ω t) y + alpha * Real.sqrt (atVar (kcov k) (st ω t) y) ≤
        atMean (kcov k) (st ω t) (x ω t) + alpha * Real.sqrt (atVar (kcov k) (st ω t) (x ω t)) := by
    intro ω t
    have hn : 0 < (turns t).cands.length := (hts t).enough
    obtain ⟨q, hq1, hq2⟩ := (point_prediction hok hq (x ω) hs t).1 (turns t).cands.get hn fun j => F (x ω j) ω + err j ω
    rw [← hdata] at hq1
    simp only [← hdata] at hq2
    obtain ⟨_, i, -, -, h3, h4, h5⟩ := choice_eq (alpha := alpha) (hts t).ordL hq1 hn
    refine ⟨i, ?_, h3.symm, fun y hy => ?_⟩
    · rw [h4, ← h3]
      rfl
    · obtain ⟨j, rfl⟩ := List.get_of_mem hy
      have h6 := h5 j
      rw [(hq2 j).1, (hq2 j).2, (hq2 i).1, (hq2 i).2, ← h3] at h6
      exact h6
  refine ⟨st, x, fun ω t => hloop _ _ t, fun ω t => ?_, fun ω t => hrule.inside _ _, hdata, fun T => ?_⟩
  · obtain ⟨i, h1, h2, -⟩ := hturn ω t
    refine ⟨i, h1, ?_⟩
    rw [List.getElem?_eq_getElem i.2]
    exact congrArg some h2
  · have hgood := bands_prob hok hq hs hrule hFm hF hem he hG hst T (fun y : S => y.1) alpha (A := _) subset_rfl
    rw [Fintype.card_coe] at hgood
    refine hgood.trans (measure_mono fun ω hω => ?_)
    have hpass : ∀ t ∈ Finset.range T, bestOf (fun y => F y ω) (turns t).cands - F (x ω t) ω ≤
        2 * alpha * Real.sqrt (atVar (kcov k) (st ω t) (x ω t)) := by
      intro t ht
      obtain ⟨i, -, -, h3⟩ := hturn ω t
      have h1 := abs_le.1 (hω t (Finset.mem_range.1 ht) ⟨x ω t, hrule.inside _ _⟩)
      have h2 : bestOf (fun y => F y ω) (turns t).cands ≤
          atMean (kcov k) (st ω t) (x ω t) + alpha * Real.sqrt (atVar (kcov k) (st ω t) (x ω t)) := by
        refine bestOf_le (List.ne_nil_of_length_pos (hts t).enough) fun y hy => ?_
        have h4 := abs_le.1 (hω t (Finset.mem_range.1 ht) ⟨y, (hts t).mem y hy⟩)
        have h5 := h3 y hy
        simp only at h4
        linarith [h4.2]
      simp only at h1
      linarith [h1.1]
    refine (Finset.sum_le_sum hpass).trans (le_of_eq ?_)
    rw [← Finset.mul_sum]

end Lop
