import Verif.Spec.Renumber

/-! # Specification vocabulary: utilities and coordinates in other units, answers turned round -/

namespace Lop.Spec

open Matrix

noncomputable section

variable {n d : Nat}

/-- A category boundary in other units. -/
def bndUnits (c : ℝ) : Bnd ℝ → Bnd ℝ
  | .fin r => .fin (c * r)
  | .neg => .neg
  | .pos => .pos

/-- The parameters of the probits when utilities are measured in units of which `c` make one old unit: everything that is a
utility is multiplied by `c`. -/
def probitUnits (c : ℝ) (P : ProbitSet) : ProbitSet :=
  { P with sigma := c * P.sigma, ord := { P.ord with sigma := c * P.ord.sigma, b := P.ord.b.map (bndUnits c) },
           absSigma := c * P.absSigma }

/-- Derivatives of a likelihood with respect to `a` times the utilities. -/
def derivsTimes (a : ℝ) (r : Derivs n) : Derivs n := ((a ^ 2)⁻¹ • r.1, a⁻¹ • r.2.1, r.2.2)

/-- A fit with all utilities multiplied by `a`. -/
def fitTimes (a : ℝ) (r : ModeFit n) : ModeFit n := ⟨r.F.map (a • ·), r.loops, r.derivs.map (derivsTimes a)⟩

/-- A prediction with all utilities multiplied by `a`; the second result of `predict` is a variance. -/
def predTimes (a : ℝ) (r : GPPred n) : GPPred n := ⟨a • r.mu, a ^ 2 • r.sigma, a ^ 2 • r.cov⟩

/-- The inversion routine always returns something, and for a multiple of the matrix the corresponding multiple. -/
def InvertsMultiples (invert : Matrix (Fin n) (Fin n) ℝ → Option (Matrix (Fin n) (Fin n) ℝ)) : Prop :=
  ∀ M, ∃ T, invert M = some T ∧ ∀ c : ℝ, c ≠ 0 → invert (c • M) = some (c⁻¹ • T)

/-- The leaf kernel for utilities multiplied by `c`. -/
def leafUnits (c : ℝ) : KLeaf ℝ (Pt d) → KLeaf ℝ (Pt d)
  | .rbf s l noise => .rbf (c * s) l (c ^ 2 * noise)
  | .zeroed s l z noise => .zeroed (c * s) l z (c ^ 2 * noise)
  | .linear s b c0 => .linear (c * s) (c * b) c0
  | .periodic s l p => .periodic (c * s) l p

/-- The kernel for utilities multiplied by `c`: of a product only the first factor changes. -/
def kernelUnits (c : ℝ) : KExpr ℝ (Pt d) → KExpr ℝ (Pt d)
  | .leaf k => .leaf (leafUnits c k)
  | .dual .add a b => .dual .add (kernelUnits c a) (kernelUnits c b)
  | .dual .mul a b => .dual .mul (kernelUnits c a) b

/-- A point in other coordinates, as degrees Celsius and Fahrenheit are: scale `c`, offset `s`. -/
def pointUnits (c s : ℝ) (u : Pt d) : Pt d := fun i => c * u i + s

/-- The leaf kernel for coordinates with scale `c` and offset `s`. -/
def leafCoords (c s : ℝ) : KLeaf ℝ (Pt d) → KLeaf ℝ (Pt d)
  | .rbf t l noise => .rbf t (c * l) noise
  | .zeroed t l z noise => .zeroed t (c * l) (some (pointUnits c s (z.getD 0))) noise
  | .linear t b c0 => .linear (t / c) b (c * c0 + s)
  | .periodic t l p => .periodic t l (c * p)

/-- The kernel for coordinates with scale `c` and offset `s`. -/
def kernelCoords (c s : ℝ) : KExpr ℝ (Pt d) → KExpr ℝ (Pt d)
  | .leaf k => .leaf (leafCoords c s k)
  | .dual op a b => .dual op (kernelCoords c s a) (kernelCoords c s b)

/-- The training data of a regression with all values multiplied by `c`; the third entry is added to a variance. -/
def rowsUnits (c : ℝ) (st : GPState d) : GPState d := st.map fun l => l.map fun r => (r.1, c * r.2.1, c ^ 2 * r.2.2)

/-- The training data of a regression with points in other coordinates. -/
def rowsCoords (c s : ℝ) (st : GPState d) : GPState d := st.map fun l => l.map fun r => (pointUnits c s r.1, r.2.1, r.2.2)

/-- "`u` rather than `v`" turned into "`v` rather than `u`". -/
def pairTurned (p : IPair n) : IPair n := ⟨-p.dk, p.u, p.v⟩

/-- Comparisons turned round and ratings `r` replaced by `1 - r`. -/
def labelsTurned (pairs : Option (List (IPair n))) (abs : Option (List (ℝ × Fin n))) : TrainLabels n :=
  ⟨pairs.map fun l => l.map pairTurned, none, abs.map fun l => l.map fun p => (1 - p.1, p.2)⟩

end

end Lop.Spec
