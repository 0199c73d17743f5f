import Verif.Spec.Hyper

/-! # Specification vocabulary for random restarts -/

namespace Lop.Spec

variable {R P : Type}

/-- The gamma priors sampled by a random restart, in order, which does not depend on the data: the preference noise if it
is tuned, the rating parameters in any case, nothing for ordinals, and the parameters of a kernel that is neither a sum
nor a product if kernels are tuned. -/
def drawnPriors [Field R] (s : HyperState R P) : List (R × R) :=
  (if s.pref.optimize then [((2 : R), (1 / 10 : R))] else []) ++ (if s.abs.vOnly then [((2 : R), (25 : R))] else [((1 : R), (1 : R)), (2, 25)]) ++
    if s.onlyProbit then [] else
      match s.kern with
      | .leaf k => (List.range (arity k)).filterMap fun j => priorOf s (.kern 0 j)
      | .dual .. => []

end Lop.Spec
