import Verif.Model.TrainPrefer
import Verif.Props.Downselect
import Verif.Props.Select
import Mathlib.Data.Fin.VecNotation

/-! # C88: the preferred candidates of a training query are Pareto-optimal -/

namespace Lop.Props

open Lop Lop.Spec

variable {α : Type*} [LinearOrder α] {d : Nat}

/-- C88 (only for candidates that are not reduced and listed with the Pareto-optimal ones first): the preferred candidates are exactly those listed as
Pareto-optimal. Missing: reduced candidates, see the counterexamples. -/
theorem C88_kept_partial (E : DownEnv (Fin d → α)) {m : String} {limit : Nat} {rows : List (Fin d → α)}
    (hm : rows.length ≤ limit ∨ m ∉ ["True", "true", "uni", "downhull", "medrand"]) (dp : Bool) {pareto : List Nat}
    (hne : pareto ≠ []) (hp : ∀ i, i ∈ pareto ↔ i < pareto.length) :
    ∃ s, trainPrefer E m limit dp pareto rows = .ok (rows, s) ∧ ∀ i, i ∈ s ↔ i ∈ pareto := by
  have hd : downselect E m limit rows = .ok rows := by
    rcases hm with hm | hm
    · have : ¬ rows.length > limit := by omega
      simp [downselect, this]
    · exact C82_other E hm limit rows
  obtain ⟨s, h1, h2⟩ := (C48_interpretation dp rows).2.2.2.2.2.1 pareto.length (List.length_pos_iff.2 hne)
  refine ⟨s, ?_, fun i => (h2 i).trans (hp i).symm⟩
  rw [trainPrefer, hd]
  simp only [h1]

/-- C88: the preferred positions are the first ones of the reduced candidates, as many as there were Pareto-optimal candidates before; all of them if there
was none. -/
theorem C88_first (E : DownEnv (Fin d → α)) (m : String) (limit : Nat) (rows out : List (Fin d → α)) (dp : Bool) (pareto : List Nat)
    (s : Finset Nat) (h : trainPrefer E m limit dp pareto rows = .ok (out, s)) :
    downselect E m limit rows = .ok out ∧ ∀ i, i ∈ s ↔ i < if pareto = [] then out.length else pareto.length := by
  rw [trainPrefer] at h
  cases hd : downselect E m limit rows with
  | error e => rw [hd] at h; cases h
  | ok out' =>
    rw [hd] at h
    simp only at h
    have key : ∃ s', getPreferred dp out' (.count pareto.length) = .ok s' ∧
        ∀ i, i ∈ s' ↔ i < if pareto = [] then out'.length else pareto.length := by
      by_cases hp : pareto = []
      · subst hp
        exact ⟨_, (C48_interpretation dp out').2.2.2.2.1, by simp⟩
      · obtain ⟨s', h1, h2⟩ := (C48_interpretation dp out').2.2.2.2.2.1 pareto.length (List.length_pos_iff.2 hp)
        exact ⟨s', h1, by simpa [hp] using h2⟩
    obtain ⟨s', h1, h2⟩ := key
    rw [h1] at h
    simp only [Except.ok.injEq, Prod.mk.injEq] at h
    obtain ⟨rfl, rfl⟩ := h
    exact ⟨rfl, h2⟩

/-- A world in which the last positions are drawn. -/
def lastEnv (X : Type*) : DownEnv X :=
  { firstEnv X with
    choice := fun n k => if k < 0 ∨ (n : Int) < k then .error .valueError else .ok ((List.range k.toNat).map (n - 1 - ·)) }

theorem lastEnv_ok (X : Type*) : DownOk (lastEnv X) where
  kmed_ok := (firstEnv_ok (X := X)).kmed_ok
  kmed_err := (firstEnv_ok (X := X)).kmed_err
  choice_ok n k h0 hk := ⟨(List.range k.toNat).map (n - 1 - ·), by simp [lastEnv]; omega, ⟨by
    refine List.Nodup.map_on ?_ List.nodup_range
    intro a ha b hb hab
    simp at ha hb
    omega, by
    intro i hi
    simp at hi
    omega⟩, by simp [h0]⟩
  choice_err n k h := by simp [lastEnv, h]
  hull_ok := (firstEnv_ok (X := X)).hull_ok
  ord_nodup := (firstEnv_ok (X := X)).ord_nodup
  ord_mem := (firstEnv_ok (X := X)).ord_mem

/-- Two Pareto-optimal candidates and two dominated ones. -/
def frontFirst : List (Fin 2 → ℤ) := [![2, 0], ![0, 2], ![1, 0], ![0, 1]]

/-- C88 refuted: with the reduction `uni` to two of four candidates, of which the first two are the Pareto-optimal ones, all preferred candidates can be
dominated ones. -/
theorem C88_counterexample :
    (∀ i, OnFront frontFirst i ↔ i < 2) ∧
    ∃ E : DownEnv (Fin 2 → ℤ), DownOk E ∧ ∃ out s,
      trainPrefer E "uni" 2 false [0, 1] frontFirst = .ok (out, s) ∧ s ⊆ Finset.range out.length ∧ s.Nonempty ∧
      ∀ i ∈ s, ∀ x, out[i]? = some x → ∀ j : Nat, frontFirst[j]? = some x → ¬ OnFront frontFirst j := by
  have hf : ∀ i, OnFront frontFirst i ↔ i < 2 := by
    intro i
    rw [← C05_get_pareto_exact]
    have : getPareto frontFirst = [0, 1] := by decide +kernel
    rw [this]
    simp
    omega
  refine ⟨hf, lastEnv _, lastEnv_ok _, ?_⟩
  have hd : downselect (lastEnv (Fin 2 → ℤ)) "uni" 2 frontFirst = .ok [![0, 1], ![1, 0]] := by
    simp [downselect, lastEnv, frontFirst, takeRows, List.range_succ]
  refine ⟨_, Finset.range 2, by rw [trainPrefer, hd]; rfl, by simp, by simp, ?_⟩
  intro i hi x hx j hj
  rw [hf]
  intro hj2
  have hi2 : i < 2 := by simpa using hi
  have h0 : x = ![0, 1] ∨ x = ![1, 0] := by
    interval_cases i
    · left; simpa using hx.symm
    · right; simpa using hx.symm
  interval_cases j
  · simp only [frontFirst, List.getElem?_cons_zero, Option.some.injEq] at hj
    rw [← hj] at h0
    revert h0
    decide
  · simp only [frontFirst, List.getElem?_cons_succ, List.getElem?_cons_zero, Option.some.injEq] at hj
    rw [← hj] at h0
    revert h0
    decide

/-- C88 refuted, indices: with more Pareto-optimal candidates than are kept, positions are preferred that no candidate has; a learner that draws a first
pair from the preferred positions then asks about a candidate that does not exist, and the training loop raises `IndexError`. -/
theorem C88_range_counterexample :
    ∃ E : DownEnv (Fin 2 → ℤ), DownOk E ∧ ∃ out s,
      trainPrefer E "uni" 2 false [0, 1, 2] [![3, 0], ![2, 1], ![0, 3], ![0, 0]] = .ok (out, s) ∧ 2 ∈ s ∧ out.length = 2 ∧
      ∃ hidden, learnerSelectRet (noDataLearner (fun _ _ _ => .error .notImplemented) false fun _ _ => (0, 2)) false true none
          (fun s => s.sort (· ≤ ·)) ([0, 0] : List ℤ) 2 s ∅ 5 = some (.ok ([2, 0], hidden)) ∧
        takeRows out [2, 0] = .error .indexError := by
  have hd : downselect (lastEnv (Fin 2 → ℤ)) "uni" 2 [![3, 0], ![2, 1], ![0, 3], ![0, 0]] = .ok [![0, 0], ![0, 3]] := by
    simp [downselect, lastEnv, takeRows, List.range_succ]
  refine ⟨lastEnv _, lastEnv_ok _, _, Finset.range 3, by rw [trainPrefer, hd]; rfl, by simp, rfl, [], ?_, rfl⟩
  decide +kernel

/-- Candidates that are not reduced. -/
example : ∃ s, trainPrefer (firstEnv (Fin 2 → ℤ)) "uni" 10 false [0, 1] frontFirst = .ok (frontFirst, s) ∧ ∀ i, i ∈ s ↔ i ∈ [0, 1] :=
  C88_kept_partial _ (.inl (by decide)) _ (by decide) (by intro i; simp; omega)

end Lop.Props
