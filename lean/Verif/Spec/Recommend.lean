import Verif.Spec.GPActive
import Verif.Model.Recommend

/-! # Specification vocabulary: choosing candidates by looking at the training data -/

namespace Lop.Spec

variable {d : Nat}

/-- A way to choose `q` different ones of `n` candidates that depends measurably on the values measured in `T` passes. -/
structure IsChoice (s : Nat → ℝ) (T : Nat) {q n : Nat} (rule : GPState d → Fin q → Fin n) : Prop where
  different : ∀ st, Function.Injective (rule st)
  event : ∀ c, DataEvent (fun _ => 0) s T {st | rule st = c}

end Lop.Spec
