import Verif.Model.Float
import Verif.Model.PrefProbit

/-! # The same functions with every operation rounded

Choice probabilities, ratings, kernel matrices, the second-derivative matrix of the pairs and the probabilities of the
probits, in the order of the operations of the code, over any arithmetic `A` (`Model/Float.lean`). Functions of numpy and
scipy other than the arithmetic are parameters. `x**2` is taken to be `x*x` rounded once. -/

namespace Lop

variable (A : FloatArith)

/-! ## `src/lop/utilities/human_choice_model.py` -/

/-- The exponentials `e` of `p_human_choice` (`human_choice_model.py:44-45`); `np.max` of an empty array raises. Differences
that overflow are left out. -/
noncomputable def choiceExpF (E : NpExp A) (r : List ℝ) (p : ℝ) : Except PyErr (List ℝ) :=
  match r with
  | [] => .error .valueError
  | a :: as =>
    let mx := as.foldl max a
    open Classical in
    if ∃ x ∈ a :: as, 2 ^ 1023 < |x - mx| then .error .outsideModel
    else .ok ((a :: as).map fun x => E.exp (A.rnd (A.rnd (x - mx) * p)))

/-- `p_human_choice(r, p)` for a vector (`human_choice_model.py:43-50`). -/
noncomputable def humanChoiceF (S : NpSum A) (E : NpExp A) (r : List ℝ) (p : ℝ) : Except PyErr (List ℝ) :=
  (choiceExpF A E r p).map fun e => e.map fun v => A.rnd (v / S.sum e)

/-- The test of `np.random.choice(xk, p=pdf)` before it draws: no probability is negative and their sum, computed by
compensated summation (`kahan`), differs from 1 by at most `sqrt(eps) = 2^-26`. -/
noncomputable def npChoiceF (kahan : List ℝ → ℝ) (draw : List ℝ → Nat) (pdf : List ℝ) : Except PyErr Nat :=
  open Classical in
  if (∃ q ∈ pdf, q < 0) ∨ |kahan pdf - 1| > 1 / 2 ^ 26 then .error .valueError else .ok (draw pdf)

/-- `sample_human_choice(r, p)` (`human_choice_model.py:63-70`). -/
noncomputable def sampleChoiceF (S : NpSum A) (E : NpExp A) (kahan : List ℝ → ℝ) (draw : List ℝ → Nat) (r : List ℝ) (p : ℝ) :
    Except PyErr Nat :=
  match humanChoiceF A S E r p with
  | .error e => .error e
  | .ok pdf => npChoiceF kahan draw pdf

/-! ## Ratings -/

/-- `sigmoid(x, k, b)` (`src/lop/utilities/synthetic_user.py:16-17`). -/
noncomputable def sigmoidF (E : NpExp A) (x k b : ℝ) : ℝ :=
  A.rnd (1 / A.rnd (1 + E.exp (-A.rnd (A.rnd (k * x) + b))))

/-- `normalize_0_1(x, eps)` (`src/lop/utilities/training_utility.py:145-149`). -/
noncomputable def normalize01F (x : List ℝ) (eps : ℝ) : Except PyErr (List ℝ) :=
  match x with
  | [] => .error .valueError
  | a :: as =>
    let mx := as.foldl max a
    let mn := as.foldl min a
    let slope := A.rnd (1 / A.rnd (A.rnd (mx - mn) + A.rnd (2 * eps)))
    .ok ((a :: as).map fun xi => A.rnd (A.rnd (A.rnd (xi - mn) + eps) * slope))

/-! ## Kernel matrices -/

/-- One entry of `RBF_kern.cov` before the noise (`src/lop/kernels/RBF_kern.py:109-114`); a point is the list of its
coordinates. -/
noncomputable def rbfF (S : NpSum A) (E : NpExp A) (sigma l : ℝ) (x y : List ℝ) : ℝ :=
  let diff := x.zipWith (fun a b => A.rnd (a - b)) y
  let top := S.sum (diff.map fun d => A.rnd (d * d))
  A.rnd (A.rnd (sigma * sigma) * E.exp (A.rnd (-top / A.rnd (A.rnd (2 * l) * l))))

/-- `RBF_kern.cov(X, X)` (`RBF_kern.py:115-117`): the noise is added to the diagonal, 0 elsewhere. -/
noncomputable def rbfCovF {n : Nat} (S : NpSum A) (E : NpExp A) (sigma l noise : ℝ) (X : Fin n → List ℝ) (i j : Fin n) : ℝ :=
  A.rnd (rbfF A S E sigma l (X i) (X j) + A.rnd ((if i = j then 1 else 0) * noise))

/-- One entry of `LinearKern.cov` (`src/lop/kernels/LinearKern.py:117-122`). -/
noncomputable def linF (S : NpSum A) (sigma sigmaB c : ℝ) (x y : List ℝ) : ℝ :=
  let tmp := S.sum (x.zipWith (fun a b => A.rnd (A.rnd (a - c) * A.rnd (b - c))) y)
  A.rnd (A.rnd (sigmaB * sigmaB) + A.rnd (A.rnd (sigma * sigma) * tmp))

/-- One entry of `PeriodicKern.cov` (`src/lop/kernels/PeriodicKern.py:79-86`); `sin` is `np.sin`, `pi` is `np.pi`. -/
noncomputable def perF (S : NpSum A) (E : NpExp A) (sin : ℝ → ℝ) (pi sigma l p : ℝ) (x y : List ℝ) : ℝ :=
  let uv := S.sum (x.zipWith (fun a b => |A.rnd (a - b)|) y)
  let s := sin (A.rnd (A.rnd (pi * uv) / p))
  A.rnd (A.rnd (sigma * sigma) * E.exp (A.rnd (A.rnd (A.rnd (-2 * s) * s) / A.rnd (l * l))))

/-! ## Pairs -/

/-- `add_up_mat` (`src/lop/probits/PreferenceProbit.py:347-351,394-398`). -/
def addUpMatF {n : Nat} (l : List ((Fin n × Fin n) × ℝ)) (M : Fin n → Fin n → ℝ) : Fin n → Fin n → ℝ :=
  l.foldl (fun M e a b => if (a, b) = e.1 then A.rnd (M a b + e.2) else M a b) M

/-- The summation of `calc_W` (`PreferenceProbit.py:186-201`): pairs with their entries of `d2_ll_pairs`. -/
def pairWF {n : Nat} (l : List ((Fin n × Fin n) × ℝ)) : Fin n → Fin n → ℝ :=
  let M1 := addUpMatF A (l.map fun e => ((e.1.1, e.1.1), -e.2)) fun _ _ => 0
  let M2 := addUpMatF A (l.map fun e => ((e.1.1, e.1.2), e.2)) M1
  let M3 := addUpMatF A (l.map fun e => ((e.1.2, e.1.1), e.2)) M2
  addUpMatF A (l.map fun e => ((e.1.2, e.1.2), -e.2)) M3

/-- What is used about `scipy.special.ndtr`: order and values between 0 and 1. -/
structure NpNdtr where
  ndtr : ℝ → ℝ
  mono : Monotone ndtr
  nonneg : ∀ x, 0 ≤ ndtr x
  le_one : ∀ x, ndtr x ≤ 1

/-- `std_norm_cdf` (`src/lop/probits/ProbitBase.py:40-43`). -/
noncomputable def stdNormCdfF (N : NpNdtr) (x : ℝ) : ℝ := N.ndtr (npClip (-30) 100 x)

/-- `likelihood(y, F)` of one pair (`PreferenceProbit.py:106-107,316-318`); `c` is the stored `_isqrt2sig`. -/
noncomputable def pairLikF {n : Nat} (N : NpNdtr) (c : ℝ) (F : Fin n → ℝ) (p : IPair n) : ℝ :=
  stdNormCdfF N (A.rnd (A.rnd (c * p.dk) * A.rnd (F p.v - F p.u)))

/-! ## Ordinal and absolute ratings -/

/-- One entry of `norm_cdf(y, F)` (`src/lop/probits/OrdinalProbit.py:142-158`): `n` ordinals, boundary `b y` for
`0 < y < n`; `c` is the stored `_isigma`, to which `var_x = 0` is added. -/
noncomputable def ordCdfF (N : NpNdtr) (n : Nat) (c : ℝ) (b : Nat → ℝ) (y : Nat) (f : ℝ) : ℝ :=
  if y = n then 1 else if y = 0 then 0 else stdNormCdfF N (A.rnd (A.rnd (c + 0) * A.rnd (b y - f)))

/-- `likelihood_each` of the rating `y + 1` (`OrdinalProbit.py:215-220`). -/
noncomputable def ordLikF (N : NpNdtr) (n : Nat) (c : ℝ) (b : Nat → ℝ) (y : Nat) (f : ℝ) : ℝ :=
  A.rnd (ordCdfF A N n c b (y + 1) f - ordCdfF A N n c b y f)

/-- `mean_link` (`src/lop/probits/AbsBoundProbit.py:237-240`). -/
noncomputable def meanLinkF (N : NpNdtr) (c eps f : ℝ) : ℝ := npClip eps (A.rnd (1 - eps)) (stdNormCdfF N (A.rnd (f * c)))

/-- `get_alpha_beta` (`AbsBoundProbit.py:246-255`). -/
noncomputable def alphaBetaF (N : NpNdtr) (c v eps f : ℝ) : ℝ × ℝ :=
  let aa := A.rnd (v * meanLinkF A N c eps f)
  (aa, A.rnd (v - aa))

end Lop
