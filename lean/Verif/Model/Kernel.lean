import Verif.Model.Basic

/-! # Model of the kernel parameter functions (`src/lop/kernels/*.py`)

Kernels are expression trees. `R` is the type of parameters, `P` the type of points (needed only for
the zero point of the zeroed kernel). -/

namespace Lop

variable {R P : Type*}

/-- The leaf kernels with their fields: `RBF_kern` (`RBF_kern.py:44-55`), `RBF_kern_zeroed`
(`RBF_kern_zeroed.py:43-46`, `zero = none` until `lazy_zero_pt_init` runs), `LinearKern`
(`LinearKern.py:46-58`), `PeriodicKern` (`PeriodicKern.py:46-58`). -/
inductive KLeaf (R P : Type*)
  | rbf (sigma l noise : R)
  | zeroed (sigma l : R) (zero : Option P) (noise : R)
  | linear (sigma sigmaB c : R)
  | periodic (sigma l p : R)
  deriving DecidableEq

/-- The operator of a `DualKern` (`KernelFunc.py:109-120`); only `+` and `*` can be built with the
Python operators. -/
inductive KOp
  | add | mul
  deriving DecidableEq

/-- A kernel: a leaf or a `DualKern` (`KernelFunc.py:130-141`). -/
inductive KExpr (R P : Type*)
  | leaf (k : KLeaf R P)
  | dual (op : KOp) (a b : KExpr R P)
  deriving DecidableEq

/-- `get_param` of the leaf kernels (`RBF_kern.py:66-68`, `LinearKern.py:69-71`,
`PeriodicKern.py:101-103`). -/
def KLeaf.getParam : KLeaf R P → List R
  | .rbf s l _ => [s, l]
  | .zeroed s l _ _ => [s, l]
  | .linear s b c => [s, b, c]
  | .periodic s l p => [s, l, p]

/-- `set_param` of the leaf kernels (`RBF_kern.py:59-62`, `LinearKern.py:62-65`,
`PeriodicKern.py:94-97`): reads the entries it needs, ignores the rest, `IndexError` when too short
(the entries assigned before the error are not kept by this model). -/
def KLeaf.setParam : KLeaf R P → List R → Except PyErr (KLeaf R P)
  | .rbf _ _ n, s :: l :: _ => .ok (.rbf s l n)
  | .zeroed _ _ z n, s :: l :: _ => .ok (.zeroed s l z n)
  | .linear _ _ _, s :: b :: c :: _ => .ok (.linear s b c)
  | .periodic _ _ _, s :: l :: p :: _ => .ok (.periodic s l p)
  | _, _ => .error .indexError

/-- `__len__` of the leaf kernels (`RBF_kern.py:177-178`, `LinearKern.py:163-164`,
`PeriodicKern.py:190-191`). -/
def KLeaf.len : KLeaf R P → Nat
  | .rbf .. => 2
  | .zeroed .. => 2
  | .linear .. => 3
  | .periodic .. => 3

/-- `DualKern.get_param` (`KernelFunc.py:203-207`). -/
def KExpr.getParam : KExpr R P → List R
  | .leaf k => k.getParam
  | .dual _ a b => a.getParam ++ b.getParam

/-- `DualKern.set_param` (`KernelFunc.py:157-161`, the second definition, which shadows the first). -/
def KExpr.setParam : KExpr R P → List R → Except PyErr (KExpr R P)
  | .leaf k, x => (k.setParam x).map .leaf
  | .dual op a b, x =>
    let aLen := a.getParam.length
    match a.setParam (x.take aLen) with
    | .error e => .error e
    | .ok a' => match b.setParam (x.drop aLen) with
      | .error e => .error e
      | .ok b' => .ok (.dual op a' b')

/-- `DualKern.__len__` (`KernelFunc.py:253-254`). -/
def KExpr.len : KExpr R P → Nat
  | .leaf k => k.len
  | .dual _ a b => a.len + b.len

/-- A kernel as Python sees it: the leaves are references to kernel objects, which may be shared
(`k + k`). -/
inductive KRef
  | leaf (addr : Nat)
  | dual (op : KOp) (a b : KRef)
  deriving DecidableEq

/-- The value of a kernel object in a heap of leaf objects. -/
def KRef.resolve (heap : Nat → KLeaf R P) : KRef → KExpr R P
  | .leaf i => .leaf (heap i)
  | .dual op a b => .dual op (a.resolve heap) (b.resolve heap)

/-- `get_param` on objects (`KernelFunc.py:203-207`). -/
def KRef.getParam (heap : Nat → KLeaf R P) : KRef → List R
  | .leaf i => (heap i).getParam
  | .dual _ a b => a.getParam heap ++ b.getParam heap

/-- `set_param` on objects: the leaves are mutated in place, first those of `self.a`, then those of
`self.b` (`KernelFunc.py:157-161`). -/
def KRef.setParam (heap : Nat → KLeaf R P) : KRef → List R → Except PyErr (Nat → KLeaf R P)
  | .leaf i, x => ((heap i).setParam x).map fun k => Function.update heap i k
  | .dual _ a b, x =>
    let aLen := (a.getParam heap).length
    match a.setParam heap (x.take aLen) with
    | .error e => .error e
    | .ok heap' => b.setParam heap' (x.drop aLen)

end Lop
