import Verif.Spec.ManyQuestions
import Mathlib.Probability.Process.Filtration
import Mathlib.MeasureTheory.Function.ConditionalExpectation.Real

/-! # Specification vocabulary: a dialogue whose questions may depend on the answers so far -/

namespace Lop.Spec

open MeasureTheory

variable {n : Nat}

/-- At every turn `i` a question is chosen from what was said before (`ℱ i`) and then answered at random, as someone with the
values `f` answers it. -/
structure IsDialogue {Ω : Type*} {mΩ : MeasurableSpace Ω} (μ : Measure Ω) (ℱ : Filtration ℕ mΩ) (sigma : ℝ) (f : Fin n → ℝ)
    (qs : ℕ → Ω → Fin n × Fin n) (a : ℕ → Ω → Bool) : Prop where
  question : ∀ i, Measurable[ℱ i] (qs i)
  answer : ∀ i, Measurable[ℱ (i + 1)] (a i)
  chance : ∀ i, μ[fun ω => if a i ω then (1 : ℝ) else 0 | ℱ i] =ᵐ[μ] fun ω => chanceAbove sigma f (qs i ω).1 (qs i ω).2

/-- The labels after the first `k` turns. -/
def dialogueLabels {Ω : Type*} (qs : ℕ → Ω → Fin n × Fin n) (a : ℕ → Ω → Bool) (ω : Ω) (k : Nat) : List (IPair n) :=
  answerLabels (fun i : Fin k => qs i ω) fun i => a i ω

end Lop.Spec
