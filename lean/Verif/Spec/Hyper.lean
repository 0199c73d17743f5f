import Verif.Model.Hyper

/-! # Specification vocabulary for hyper-parameters -/

namespace Lop.Spec

variable {R P : Type}

/-- Names of individual hyper-parameters of a model; `kern i j` is the `j`-th parameter of the `i`-th
leaf kernel, counted from left to right. -/
inductive Slot
  | prefSigma | ordSigma | ordB | absSigma | absV | kern (i j : Nat)
  deriving DecidableEq

/-- The leaf kernels of an expression from left to right. -/
def leaves : KExpr R P → List (KLeaf R P)
  | .leaf k => [k]
  | .dual _ a b => leaves a ++ leaves b

/-- The addresses mentioned by a kernel made of objects, left to right. -/
def addrs : KRef → List Nat
  | .leaf i => [i]
  | .dual _ a b => addrs a ++ addrs b

/-- The named numerical fields of a leaf kernel. -/
def field : KLeaf R P → Nat → Option R
  | .rbf s _ _, 0 | .zeroed s _ _ _, 0 | .linear s _ _, 0 | .periodic s _ _, 0 => some s
  | .rbf _ l _, 1 | .zeroed _ l _ _, 1 | .periodic _ l _, 1 => some l
  | .linear _ b _, 1 => some b
  | .linear _ _ c, 2 => some c
  | .periodic _ _ p, 2 => some p
  | _, _ => none

/-- Number of tunable fields of a leaf kernel. -/
def arity : KLeaf R P → Nat
  | .rbf .. | .zeroed .. => 2
  | .linear .. | .periodic .. => 3

/-- Two leaves of the same kind with the same fixed fields (noise, zero point). -/
def SameKind : KLeaf R P → KLeaf R P → Prop
  | .rbf _ _ n, .rbf _ _ n' => n = n'
  | .zeroed _ _ z n, .zeroed _ _ z' n' => z = z' ∧ n = n'
  | .linear .., .linear .. => True
  | .periodic .., .periodic .. => True
  | _, _ => False

/-- Two kernels with the same operators, leaf kinds and fixed fields. -/
def SameTree : KExpr R P → KExpr R P → Prop
  | .leaf k, .leaf k' => SameKind k k'
  | .dual op a b, .dual op' a' b' => op = op' ∧ SameTree a a' ∧ SameTree b b'
  | _, _ => False

/-- Number of boundaries of an ordinal probit that are known to be finite: the top one. -/
def ordTop (o : OrdHyper R) : Option R :=
  match o.b[o.b.length - 2]? with
  | some (.fin r) => some r
  | _ => none

/-- Reading one hyper-parameter. -/
def readSlot (s : HyperState R P) : Slot → Option R
  | .prefSigma => some s.pref.sigma
  | .ordSigma => some s.ord.sigma
  | .ordB => ordTop s.ord
  | .absSigma => some s.abs.sigma
  | .absV => some s.abs.v
  | .kern i j => ((leaves s.kern)[i]?).bind fun k => field k j

/-- The documented layout of the hyper-parameter vector: probits with data in the order preference,
ordinal, absolute; then, if the kernel is tuned too, the kernel parameters leaf by leaf. -/
def layout (s : HyperState R P) : List Slot :=
  (if s.hasPref ∧ s.pref.optimize then [.prefSigma] else []) ++
  (if s.hasOrd then [.ordSigma, .ordB] else []) ++
  (if s.hasAbs ∧ s.abs.optimize then (if s.abs.vOnly then [.absV] else [.absSigma, .absV]) else []) ++
  (if s.onlyProbit then [] else
    (leaves s.kern).zipIdx.flatMap fun (k, i) => (List.range (arity k)).map fun j => .kern i j)

/-- Order of category boundaries. -/
def bndLe [LE R] : Bnd R → Bnd R → Prop
  | .neg, _ => True
  | _, .pos => True
  | .fin a, .fin b => a ≤ b
  | _, _ => False

/-- Boundaries as produced by a scalar `b`: equally spaced from 0 to `top`. -/
def Uniform [Field R] [LinearOrder R] (o : OrdHyper R) : Prop :=
  ∃ top : R, 0 ≤ top ∧ (o.n = 2 → top = 0) ∧ o.b.length = o.n + 1 ∧ o.b[0]? = some .neg ∧
    o.b[o.n]? = some .pos ∧
    ∀ i : Nat, 1 ≤ i → i < o.n → o.b[i]? = some (.fin (((i : R) - 1) * (top / ((o.n : R) - 2))))

/-- The gamma prior (shape, scale) of a hyper-parameter (module constants of the probits and
kernels, by name). The ordinal parameters have no prior. -/
def priorOf [Field R] (s : HyperState R P) : Slot → Option (R × R)
  | .prefSigma => some (2, 1 / 10)
  | .ordSigma => none
  | .ordB => none
  | .absSigma => some (1, 1)
  | .absV => some (2, 25)
  | .kern i j => ((leaves s.kern)[i]?).bind fun
    | .rbf .. | .zeroed .. => [((10 : R), (1 / 10 : R)), (3, 2 / 5)][j]?
    | .linear .. | .periodic .. => [((4 : R), (1 / 4 : R)), (3, 1 / 5), (2, 1 / 2)][j]?

/-- Every tunable hyper-parameter of `s` has in `s'` a value drawn from its own prior, different
parameters by different draws; `rng i k θ` is the value of the `i`-th gamma draw if made with shape `k`
and scale `θ`. -/
def DrawnFromOwnPrior [Field R] (rng : Nat → R → R → R) (s s' : HyperState R P) : Prop :=
  ∃ idx : Slot → Nat, (∀ a ∈ layout s, ∀ b ∈ layout s, idx a = idx b → a = b) ∧
    ∀ slot ∈ layout s, ∃ q, priorOf s slot = some q ∧ readSlot s' slot = some (rng (idx slot) q.1 q.2)

end Lop.Spec
