import Verif.Proofs.LinExact

/-! # C143: exactly which comparisons the linear learning example stores -/

namespace Lop.Props

open Lop.Spec Lop

variable {d : Nat}

/-- C143: the stored comparisons, read as points, are question by question those of choosing the first best item: it beats
every other item of the question, and nothing else is stored. -/
theorem C143_exact (f : (Fin d → ℝ) → ℝ) (qs : List (List (Fin d → ℝ))) (hq : ∀ q ∈ qs, q ≠ [])
    {st : ModelState d ℝ ℝ} (hst : linLearnerScript f qs = .ok st) :
    ∃ ls, List.Forall₂ (fun q l => ∃ b, FirstBest (q.map f) b ∧ l = chosenOver q b) qs ls ∧
      (st.y.rel.getD []).map (fun p => ((st.X.getD [])[winner p]?, (st.X.getD [])[loser p]?)) = ls.flatten := by
  obtain ⟨ls, h1, h2⟩ := linLoop_exact f qs hq (modelPredict ({} : ModelState d ℝ ℝ)).1 st
    (by simp [modelPredict, PairsTruthful]) hst
  refine ⟨ls, h1.imp ?_, by simpa [modelPredict] using h2⟩
  rintro q l ⟨b, hb, rfl⟩
  obtain ⟨m, hm, hmax, hfirst⟩ := npArgmax_spec hb
  exact ⟨b, ⟨m, hm, fun j a hj => hmax a (List.mem_of_getElem? hj), hfirst⟩, rfl⟩

/-- Questions as in the example meet the hypotheses of `C143_exact`. -/
example : ∃ st, linLearnerScript (fakeLinear ![(2 : ℝ) / 3, 1 / 3]) [[![(1 : ℝ), 0], ![0, 1]], [![3, 4], ![4, 3]]] = .ok st := by
  obtain ⟨st, h, -⟩ := linScript_spec (fakeLinear ![(2 : ℝ) / 3, 1 / 3]) [[![(1 : ℝ), 0], ![0, 1]], [![3, 4], ![4, 3]]]
    (by simp)
  exact ⟨st, h⟩

end Lop.Props
