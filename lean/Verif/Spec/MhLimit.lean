import Verif.Spec.Stationary

/-! # Specification for C103: how far two distributions are apart -/

namespace Lop.Spec

open MeasureTheory

/-- `S` has the distribution `Q` up to `ε`: no event distinguishes them by more. -/
def DistributedWithin {Ω X : Type*} [MeasurableSpace Ω] [MeasurableSpace X] (μ : Measure Ω) (S : Ω → X) (Q : Measure X) (ε : ℝ) : Prop :=
  ∀ K, MeasurableSet K → |μ.real (S ⁻¹' K) - Q.real K| ≤ ε

/-- The uniform distribution on [-1, 1) in each coordinate, `np.random.random(dim) * 2 - 1`. -/
noncomputable def boxUniform (d : Nat) : Measure (Fin d → ℝ) := Measure.pi fun _ => unitUniform.map fun v => v * 2 - 1

end Lop.Spec
