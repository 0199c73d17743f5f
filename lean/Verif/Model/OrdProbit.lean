import Verif.Model.PrefProbit
import Verif.Model.Hyper

/-! # Model of the likelihood and derivatives of `src/lop/probits/OrdinalProbit.py`

Labels are lists of (rating, index) with the index in range (`F[y[1]]` raises otherwise). A result that is
not a finite number in numpy (`inf`, `nan`) is `none`. `sigma` is not 0 (numpy gives `inf`, a Python float
raises in `set_sigma`). -/

namespace Lop

open Spec

variable {m : Nat}

/-- `self._isigma*(b - f)` for a boundary `b` (`OrdinalProbit.py:119,133,155`). -/
noncomputable def bndZ (isigma f : ℝ) : Bnd ℝ → Bnd ℝ
  | .fin r => .fin (isigma * (r - f))
  | .neg => if 0 ≤ isigma then .neg else .pos
  | .pos => if 0 ≤ isigma then .pos else .neg

/-- `std_norm_cdf` at a possibly infinite argument: `np.clip(±inf, -30, 100)` is a limit. -/
noncomputable def bndCdf : Bnd ℝ → ℝ
  | .fin z => stdNormCdf z
  | .neg => Phi (-30)
  | .pos => Phi 100

/-- `std_norm_pdf` at a possibly infinite argument: `exp(-inf)` is 0. -/
noncomputable def bndPdf : Bnd ℝ → ℝ
  | .fin z => stdNormPdf z
  | .neg => 0
  | .pos => 0

/-- One entry of `norm_cdf(y, F)` with `var_x = 0` (`OrdinalProbit.py:142-157`), `y` a non-negative
rating; `self.b[y]` may raise. -/
noncomputable def ordCdf (o : OrdHyper ℝ) (y : Nat) (f : ℝ) : Except PyErr ℝ :=
  if y = o.n then .ok 1
  else if y ≠ 0 then
    match o.b[y]? with
    | some b => .ok (bndCdf (bndZ (1 / o.sigma) f b))
    | none => .error .indexError
  else .ok 0

/-- `norm_pdf(y, f)` for a scalar rating (`OrdinalProbit.py:135-140`). -/
noncomputable def ordPdf (o : OrdHyper ℝ) (y : Nat) (f : ℝ) : Except PyErr ℝ :=
  if y ≠ 0 ∧ y ≠ o.n then
    match o.b[y]? with
    | some b => .ok (bndPdf (bndZ (1 / o.sigma) f b))
    | none => .error .indexError
  else .ok 0

/-- One entry of `likelihood_each` (`OrdinalProbit.py:215-220`) for a positive rating `y + 1`. -/
noncomputable def ordLik (o : OrdHyper ℝ) (y : Nat) (f : ℝ) : Except PyErr ℝ := do
  let hi ← ordCdf o (y + 1) f
  let lo ← ordCdf o y f
  pure (hi - lo)

/-- `likelihood_each(y, F)` (`OrdinalProbit.py:215-220`): ratings below 1 raise before anything else. -/
noncomputable def ordLikEach (o : OrdHyper ℝ) (y : List (Int × Fin m)) (F : Fin m → ℝ) :
    Except PyErr (List ℝ) :=
  if y.any fun p => p.1 - 1 < 0 then .error .exception
  else y.mapM fun p => ordLik o (p.1 - 1).toNat (F p.2)

/-- `likelihood(y, F)` (`OrdinalProbit.py:229-230`). -/
noncomputable def ordLikelihood (o : OrdHyper ℝ) (y : List (Int × Fin m)) (F : Fin m → ℝ) :
    Except PyErr ℝ := do
  let l ← ordLikEach o y F
  pure l.prod

/-- `np.log(x)`: finite exactly for positive arguments. -/
noncomputable def npLog (x : ℝ) : Option ℝ := if 0 < x then some (Real.log x) else none

/-- `z_k(y, f)` for a scalar rating (`OrdinalProbit.py:113-119`): finite only for a finite boundary. -/
noncomputable def ordZ (o : OrdHyper ℝ) (y : Nat) (f : ℝ) : Except PyErr (Option ℝ) :=
  match o.b[y]? with
  | some (.fin r) => .ok (some (1 / o.sigma * (r - f)))
  | some _ => .ok none
  | none => .error .indexError

/-- The formulas for a middle category with a small likelihood (`OrdinalProbit.py:199-203`). -/
noncomputable def ordSmallMiddle (sigma z1 z2 : ℝ) : Option (ℝ × ℝ) :=
  let ep := Real.exp (-0.5 * (z1 ^ 2 - z2 ^ 2))
  if ep - 1 = 0 then none
  else
    let d := 1 / sigma * (z1 * ep - z2) / (ep - 1)
    some (d, -((1 / sigma) ^ 2 * (1 - (z1 ^ 2 * ep - z2 ^ 2) / (ep - 1)) + d ^ 2))

/-- `dpy_df[i]`, `d2py_df2[i]` (`OrdinalProbit.py:183-206`) for the rating `y + 1` with likelihood `l`. -/
noncomputable def ordDerv1 (o : OrdHyper ℝ) (eps : ℝ) (y : Nat) (f l : ℝ) :
    Except PyErr (Option (ℝ × ℝ)) :=
  if l < eps then
    if y + 1 = 1 then do
      let z ← ordZ o (y + 1) f
      pure (z.map fun z => (1 / o.sigma * z, -(1 / o.sigma) ^ 2))
    else if y + 1 = o.n then do
      let z ← ordZ o y f
      pure (z.map fun z => (1 / o.sigma * z, -(1 / o.sigma) ^ 2))
    else do
      let z1 ← ordZ o (y + 1) f
      let z2 ← ordZ o y f
      pure (match z1, z2 with
        | some z1, some z2 => ordSmallMiddle o.sigma z1 z2
        | _, _ => none)
  else do
    let p1 ← ordPdf o (y + 1) f
    let p2 ← ordPdf o y f
    let d := -(1 / o.sigma) * (p1 - p2) / l
    pure (some (d, -(d ^ 2 + (1 / o.sigma) ^ 2 * (p1 - p2) / l)))

/-- `full[idx] = values`: later assignments overwrite earlier ones. -/
def assignVec (l : List (Fin m × ℝ)) : Fin m → ℝ :=
  l.foldl (fun M e => Function.update M e.1 e.2) fun _ => 0

/-- `full_W[np.meshgrid(idx, idx)] = np.diagflat(w)` (`OrdinalProbit.py:208-213`): entry `(idx j, idx i)`
receives `w i` if `i = j` and 0 otherwise, in row-major order of `(i, j)`. -/
def assignGrid (l : List (Fin m × ℝ)) : Fin m → Fin m → ℝ :=
  (l.zipIdx.flatMap fun (e, i) => l.zipIdx.map fun (e', j) =>
      ((e'.1, e.1), if i = j then e.2 else 0)).foldl
    (fun M a r c => if (r, c) = a.1 then a.2 else M r c) fun _ _ => 0

/-- Result of `derivatives` when every entry is finite: `W`, gradient, log-likelihood. -/
abbrev OrdDerv (m : Nat) := (Fin m → Fin m → ℝ) × (Fin m → ℝ) × ℝ

/-- `OrdinalProbit.derivatives(y, F)` (`OrdinalProbit.py:168-212`); `none` when some entry is not
finite. -/
noncomputable def ordDerivatives (o : OrdHyper ℝ) (eps : ℝ) (y : List (Int × Fin m)) (F : Fin m → ℝ) :
    Except PyErr (Option (OrdDerv m)) := do
  let l ← ordLikEach o y F
  let py := l.map npLog
  let d ← (y.zip l).mapM fun (p, l) => ordDerv1 o eps (p.1 - 1).toNat (F p.2) l
  pure do
    let d ← d.mapM id
    let py ← py.mapM id
    let idx := y.map (·.2)
    pure (assignGrid (idx.zip (d.map fun e => -e.2)), assignVec (idx.zip (d.map (·.1))), py.sum)

end Lop
