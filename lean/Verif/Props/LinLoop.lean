import Verif.Proofs.LinLoop
import Verif.Props.LinearBest

/-! # C143: the linear learning example asks a user who is never wrong -/

namespace Lop.Props

open Lop.Spec Lop Matrix

variable {d n : Nat}

/-- C143: the loop ends without exception, the training points are the items of all questions in order, there is one
comparison less than items per question, and every comparison agrees with the true utility. -/
theorem C143_data (f : (Fin d → ℝ) → ℝ) (qs : List (List (Fin d → ℝ))) (hq : ∀ q ∈ qs, q ≠ []) :
    ∃ st, linLearnerScript f qs = .ok st ∧ st.X.getD [] = qs.flatten ∧
      (st.y.rel.getD []).length = (qs.map fun q => q.length - 1).sum ∧
      PairsTruthful f qs.flatten (st.y.rel.getD []) := by
  obtain ⟨st, h1, h2, h3, h4, -⟩ := linScript_spec f qs hq
  exact ⟨st, h1, h2, h4, h2 ▸ h3⟩

/-- C143: the comparisons are label rows among the stored points, as the probit takes them. -/
theorem C143_rows (f : (Fin d → ℝ) → ℝ) (qs : List (List (Fin d → ℝ))) (hq : ∀ q ∈ qs, q ≠ [])
    {st : ModelState d ℝ ℝ} (hst : linLearnerScript f qs = .ok st) :
    ∃ y : List (IPair qs.flatten.length), plainPairs y = st.y.rel.getD [] := by
  obtain ⟨st', h1, -, -, h4⟩ := C143_data f qs hq
  rw [hst] at h1
  cases h1
  generalize st.y.rel.getD [] = rel at h4
  induction rel with
  | nil => exact ⟨[], rfl⟩
  | cons p rest ih =>
    obtain ⟨y, hy⟩ := ih fun p' hp' => h4 p' (by simp [hp'])
    obtain ⟨-, a, b, ha, hb, -⟩ := h4 p (by simp)
    exact ⟨⟨p.dk, ⟨p.u, (List.getElem?_eq_some_iff.mp ha).1⟩, ⟨p.v, (List.getElem?_eq_some_iff.mp hb).1⟩⟩ :: y, by
      simpa [plainPairs] using hy⟩

/-- C143: the true weights of `FakeLinear` contradict no comparison. As soon as one question is about items of different
value there are no best weights: the optimisation in the example has no optimum to find, whatever is selected. -/
theorem C143_no_best {sigma : ℝ} (hs : 0 < sigma) (w : Fin (n + 1) → ℝ) (qs : List (List (Fin (n + 1) → ℝ)))
    (hq : ∀ q ∈ qs, q ≠ []) {st : ModelState (n + 1) ℝ ℝ} (hst : linLearnerScript (fakeLinear w) qs = .ok st)
    (y : List (IPair qs.flatten.length)) (hy : plainPairs y = st.y.rel.getD []) :
    WeightsAgree (Matrix.of qs.flatten.get) y w ∧
      ((∃ q ∈ qs, NotTied (fakeLinear w) q) → ¬ ∃ v, IsBestWeights sigma y (Matrix.of qs.flatten.get) v) := by
  obtain ⟨st', h1, h2, h3, -, h5⟩ := linScript_spec (fakeLinear w) qs hq
  rw [hst] at h1
  cases h1
  rw [h2] at h3 h5
  rw [← hy] at h3 h5
  have hval : ∀ (i : Fin qs.flatten.length) a, qs.flatten[(i : Nat)]? = some a →
      (Matrix.of qs.flatten.get *ᵥ w) i = fakeLinear w a := by
    intro i a ha
    obtain ⟨hi, rfl⟩ := List.getElem?_eq_some_iff.mp ha
    rfl
  have hag : WeightsAgree (Matrix.of qs.flatten.get) y w := by
    intro p hp
    obtain ⟨hd, a, b, ha, hb, hab⟩ := h3 ⟨p.dk, p.u, p.v⟩ (List.mem_map_of_mem hp)
    simp only at hd ha hb
    rw [hval _ _ ha, hval _ _ hb, hd]
    push_cast
    linarith
  refine ⟨hag, fun hn hbest => ?_⟩
  have hind := (C128_exists hs _ y).1 hbest w hag
  obtain ⟨p, hp, a, b, ha, hb, hab⟩ := h5 hn
  obtain ⟨p', hp', rfl⟩ := List.mem_map.1 hp
  have := hind p' hp'
  have hd := (h3 _ hp).1
  simp only at ha hb hd
  rw [hval _ _ ha, hval _ _ hb, hd] at this
  push_cast at this
  linarith

/-- Two items of different value meet the hypotheses of `C143_no_best`. -/
example : (∀ q ∈ [[![(1 : ℝ), 0], ![0, 1]]], q ≠ []) ∧
    ∃ q ∈ [[![(1 : ℝ), 0], ![0, 1]]], NotTied (fakeLinear ![(2 : ℝ) / 3, 1 / 3]) q := by
  refine ⟨by simp, _, List.mem_singleton_self _, ![1, 0], by simp, ![0, 1], by simp, ?_⟩
  simp [fakeLinear]
  norm_num

end Lop.Props
