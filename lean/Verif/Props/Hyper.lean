import Verif.Proofs.Hyper
import Mathlib.Data.Rat.Floor
import Mathlib.Algebra.Order.Ring.Rat
import Mathlib.Tactic.IntervalCases
import Mathlib.Tactic.NormNum

/-! # Properties C23–C26: hyper-parameter vectors and ordinal thresholds -/

namespace Lop.Props

open Spec

/-! ## C25 composite kernel parameters -/

section
variable {R P : Type}

/-- C25: `get_param` lists the tunable fields of all leaves from left to right, and `len` is the
length of that vector. -/
theorem C25_get_param (k : KExpr R P) :
    k.getParam.map some =
        (leaves k).flatMap (fun l => (List.range (arity l)).map (field l)) ∧
      k.len = k.getParam.length := by
  refine ⟨?_, (expr_len k).symm⟩
  rw [expr_getParam, List.map_flatMap]
  simp only [leaf_getParam]

/-- C25: after `set_param(x)` with a vector at least as long as `len(kernel)`, `get_param()` returns
the first `len(kernel)` entries of `x`, the leaves (left to right) hold exactly these values in order
and nothing else about the kernel changed. -/
theorem C25_set_param (k : KExpr R P) (x : List R) (h : k.len ≤ x.length) :
    ∃ k', k.setParam x = .ok k' ∧ k'.getParam = x.take k.len ∧ SameTree k k' ∧
      (leaves k').flatMap (fun l => (List.range (arity l)).map (field l)) =
        (x.take k.len).map some := by
  obtain ⟨k', h1, h2, h3⟩ := expr_set k x h
  exact ⟨k', h1, h2, h3, by rw [← (C25_get_param k').1, h2]⟩

/-- C25: the exact round trip for vectors of matching length. -/
theorem C25_round_trip (k : KExpr R P) (x : List R) (h : x.length = k.len) :
    ∃ k', k.setParam x = .ok k' ∧ k'.getParam = x ∧ SameTree k k' := by
  obtain ⟨k', h1, h2, h3⟩ := expr_set k x h.ge
  exact ⟨k', h1, by rw [h2, ← h, List.take_length], h3⟩

/-- C25: writing back what was read changes nothing. -/
theorem C25_set_get (k : KExpr R P) : k.setParam k.getParam = .ok k := by
  simpa using expr_get_set k []

/-- C25: a vector that is too short is rejected. -/
theorem C25_too_short (k : KExpr R P) (x : List R) (h : x.length < k.len) :
    k.setParam x = .error .indexError := expr_set_short k x h

/-- C25 on kernel objects: as long as no kernel object occurs twice in the expression, mutating the
objects in place has exactly the effect described above. -/
theorem C25_objects_partial (heap : Nat → KLeaf R P) (r : KRef) (x : List R) (hn : (addrs r).Nodup)
    (h : x.length = (r.resolve heap).len) :
    ∃ heap', r.setParam heap x = .ok heap' ∧ r.getParam heap' = x ∧
      ∀ i ∉ addrs r, heap' i = heap i := by
  obtain ⟨k', h1, h2, h3⟩ := C25_round_trip (r.resolve heap) x h
  have hr := ref_set_refines heap r x hn
  rw [h1] at hr
  cases hs : r.setParam heap x with
  | error e => rw [hs] at hr; simp [Except.map] at hr
  | ok heap' =>
    rw [hs] at hr
    simp only [Except.map, Except.ok.injEq] at hr
    exact ⟨heap', rfl, by rw [ref_getParam, hr, h2], ref_set_frame hs⟩

/-- C25 fails for an expression that uses the same kernel object twice (`k + k`): `get_param` then
reports four parameters, but the second half overwrites the first. -/
theorem C25_shared_object_counterexample :
    ∃ (heap : Nat → KLeaf ℚ Unit) (r : KRef) (x : List ℚ), x.length = (r.resolve heap).len ∧
      ∃ heap', r.setParam heap x = .ok heap' ∧ r.getParam heap' ≠ x := by
  refine ⟨fun _ => .rbf 1 1 0, .dual .add (.leaf 0) (.leaf 0), [1, 2, 3, 4], rfl, _, rfl, ?_⟩
  decide +kernel

/-- `(rbf * periodic) + linear` with eight parameters. -/
example : ∃ k', (KExpr.dual .add (.dual .mul (.leaf (.rbf 1 2 3)) (.leaf (.periodic 1 1 1)))
      (.leaf (.linear 0 0 0)) : KExpr ℚ Unit).setParam [1, 2, 3, 4, 5, 6, 7, 8] = .ok k' ∧
      k'.getParam = [1, 2, 3, 4, 5, 6, 7, 8] ∧
      k' = .dual .add (.dual .mul (.leaf (.rbf 1 2 3)) (.leaf (.periodic 3 4 5)))
        (.leaf (.linear 6 7 8)) := ⟨_, rfl, rfl, rfl⟩

example : (addrs (.dual .add (.dual .mul (.leaf 0) (.leaf 1)) (.leaf 2))).Nodup := by decide

end

/-! ## C26 ordinal thresholds -/

section
variable {R : Type} [Field R] [LinearOrder R] [IsStrictOrderedRing R]

/-- C26: the boundaries after `set_b(b)` with a number: `n+1` boundaries from `-inf` to `+inf`, the
first finite one is 0, in non-decreasing order (equally spaced); the noise is unchanged. -/
theorem C26_boundaries (o : OrdHyper R) (b : R) (hn : 2 ≤ o.n) :
    ∃ o', o.setB (.scalar b) = .ok o' ∧ o'.n = o.n ∧ o'.sigma = o.sigma ∧
      o'.b.length = o.n + 1 ∧ o'.b[0]? = some .neg ∧ o'.b[1]? = some (.fin 0) ∧
      o'.b[o.n]? = some .pos ∧ o'.b.Pairwise bndLe ∧ Uniform o' ∧
      (∀ i : Nat, 1 ≤ i → i < o.n → ∃ r, o'.b[i]? = some (.fin r) ∧ 0 ≤ r ∧ r ≤ |b|) := by
  refine ⟨{ o with b := cuts b o.n }, setB_scalar o b (by omega), rfl, rfl,
    cuts_length b _ (by omega), cuts_zero b _, ?_, cuts_last b _ (by omega), ?_,
    cuts_uniform o b hn, ?_⟩
  · simp only
    rw [cuts_mid b _ 1 (le_refl _) (by omega)]; simp
  · rw [List.pairwise_iff_getElem]
    intro i j hi hj hij
    simp only [cuts_length b o.n (by omega)] at hi hj ⊢
    have e1 := List.getElem?_eq_getElem (l := cuts b o.n) (i := i) (by
      rw [cuts_length b _ (by omega)]; omega)
    have e2 := List.getElem?_eq_getElem (l := cuts b o.n) (i := j) (by
      rw [cuts_length b _ (by omega)]; omega)
    rcases Nat.eq_zero_or_pos i with rfl | h1
    · rw [cuts_zero, Option.some.injEq] at e1
      rw [← e1]; trivial
    · rcases Nat.lt_or_ge j o.n with h2 | h2
      · rw [cuts_mid b _ i h1 (by omega), Option.some.injEq] at e1
        rw [cuts_mid b _ j (by omega) h2, Option.some.injEq] at e2
        rw [← e1, ← e2]
        simp only [bndLe]
        have hn2 : (0 : R) ≤ (o.n : R) - 2 := by
          have : (2 : R) ≤ o.n := by exact_mod_cast hn
          linarith
        have hij' : (i : R) ≤ j := by exact_mod_cast hij.le
        exact mul_le_mul_of_nonneg_right (by linarith) (div_nonneg (abs_nonneg _) hn2)
      · have : j = o.n := by omega
        subst this
        rw [cuts_last b _ (by omega), Option.some.injEq] at e2
        rw [← e2]
        cases (cuts b o.n)[i] <;> trivial
  · intro i h1 h2
    refine ⟨_, cuts_mid b _ i h1 h2, ?_, ?_⟩
    · have hn2 : (0 : R) ≤ (o.n : R) - 2 := by
        have : (2 : R) ≤ o.n := by exact_mod_cast hn
        linarith
      have : (1 : R) ≤ i := by exact_mod_cast h1
      exact mul_nonneg (by linarith) (div_nonneg (abs_nonneg _) hn2)
    · rcases Nat.lt_or_ge 2 o.n with h3 | h3
      · have h3' : (0 : R) < (o.n : R) - 2 := by
          have : (2 : R) < o.n := by exact_mod_cast h3
          linarith
        have h4 : (i : R) - 1 ≤ (o.n : R) - 2 := by
          have : (i : R) + 1 ≤ o.n := by exact_mod_cast h2
          linarith
        calc ((i : R) - 1) * (|b| / ((o.n : R) - 2))
            ≤ ((o.n : R) - 2) * (|b| / ((o.n : R) - 2)) :=
              mul_le_mul_of_nonneg_right h4 (div_nonneg (abs_nonneg _) h3'.le)
          _ = |b| := by field_simp
      · have : i = 1 := by omega
        subst this; simp

/-- C26: a single category is degenerate and zero categories are rejected. -/
theorem C26_rejected (o : OrdHyper R) (b : R) (hn : o.n = 0) :
    o.setB (.scalar b) = .error .valueError := by
  simp [OrdHyper.setB, hn]

/-- C26 for `set_hyper`, partial: with three or more ordinals `get_hyper` returns `(sigma, |b|)`.
Missing for the full claim: two ordinals, see `C26_two_ordinals_counterexample`. -/
theorem C26_round_trip_partial (o : OrdHyper R) (s b : R) (hn : 3 ≤ o.n) :
    ∃ o', o.setHyper [s, b] = .ok o' ∧ o'.getHyper = .ok [s, |b|] ∧ Uniform o' := by
  refine ⟨{ o with sigma := s, b := cuts b o.n }, ?_, ?_, ?_⟩
  · exact setB_scalar { o with sigma := s } b (by simp; omega)
  · exact cuts_getHyper { o with sigma := s } b hn
  · exact cuts_uniform { o with sigma := s } b (by simp; omega)

/-- C26 for `set_num_ordinals`, partial: changing the number of categories between numbers ≥ 3 keeps
`(sigma, b)`. -/
theorem C26_set_num_ordinals_partial (o : OrdHyper R) (s b : R) (m n : Nat)
    (hm : 3 ≤ m) (hn : 3 ≤ n) (hom : o.n = m) (ho : o.setHyper [s, b] = .ok o) :
    ∃ o', o.setNumOrdinals n = .ok o' ∧ o'.n = n ∧ o'.getHyper = .ok [s, |b|] ∧ Uniform o' := by
  have h1 := setB_scalar { o with sigma := s } b (by simp; omega)
  have h2 : o = { o with sigma := s, b := cuts b o.n } := by
    have : o.setHyper [s, b] = .ok { o with sigma := s, b := cuts b o.n } := h1
    rw [ho] at this
    exact Except.ok.inj this
  have hg : o.getHyper = .ok [s, |b|] := by
    rw [h2]; exact cuts_getHyper { o with sigma := s } b (by simpa using hom ▸ hm)
  have hg' : ({ o with n := n } : OrdHyper R).getHyper = .ok [s, |b|] := hg
  have hs : o.sigma = s := by rw [h2]
  refine ⟨{ o with n := n, b := cuts |b| n }, ?_, rfl, ?_, ?_⟩
  · unfold OrdHyper.setNumOrdinals
    simp only [hg']
    exact setB_scalar { o with n := n } |b| (by simp; omega)
  · have := cuts_getHyper { o with n := n } |b| hn
    rw [abs_abs] at this
    simpa [hs] using this
  · exact cuts_uniform { o with n := n } |b| (by simp; omega)

/-- C26 fails with two ordinals: `get_hyper` reports 0 for every `b`. -/
theorem C26_two_ordinals_counterexample (o : OrdHyper R) (s b : R) (hn : o.n = 2) (hb : b ≠ 0) :
    ∃ o', o.setHyper [s, b] = .ok o' ∧ o'.getHyper = .ok [s, 0] ∧ o'.getHyper ≠ .ok [s, |b|] := by
  refine ⟨{ o with sigma := s, b := cuts b o.n }, ?_, ?_, ?_⟩
  · exact setB_scalar { o with sigma := s } b (by simp; omega)
  · exact cuts_getHyper_two { o with sigma := s } b hn
  · rw [cuts_getHyper_two { o with sigma := s } b hn]
    simpa using fun h => hb (abs_eq_zero.1 h.symm)

/-- … and going through two ordinals (`set_num_ordinals(2)` and back) loses the thresholds: all
boundaries become 0, so every middle category has probability zero. -/
theorem C26_lost_thresholds_counterexample :
    ∃ o o1 o2 : OrdHyper ℚ, OrdHyper.init 1 1 5 = .ok o ∧ o.getHyper = .ok [1, 1] ∧
      o.setNumOrdinals 2 = .ok o1 ∧ o1.setNumOrdinals 5 = .ok o2 ∧
      o2.b = [.neg, .fin 0, .fin 0, .fin 0, .fin 0, .pos] ∧ o2.getHyper = .ok [1, 0] := by
  refine ⟨⟨1, 5, [.neg, .fin 0, .fin (1 / 3), .fin (2 / 3), .fin 1, .pos]⟩,
    ⟨1, 2, [.neg, .fin 0, .pos]⟩, ⟨1, 5, [.neg, .fin 0, .fin 0, .fin 0, .fin 0, .pos]⟩, ?_⟩
  decide +kernel

example : ∃ o' : OrdHyper ℚ, (⟨1, 5, []⟩ : OrdHyper ℚ).setHyper [2, -3] = .ok o' ∧
    o'.b = [.neg, .fin 0, .fin 1, .fin 2, .fin 3, .pos] ∧ o'.getHyper = .ok [2, 3] := by
  refine ⟨⟨2, 5, [.neg, .fin 0, .fin 1, .fin 2, .fin 3, .pos]⟩, ?_, rfl, ?_⟩ <;> decide +kernel

end

/-! ## C23 the hyper-parameter vector -/

section
variable {R P : Type} [Field R] [LinearOrder R] [IsStrictOrderedRing R]

omit [IsStrictOrderedRing R] in
/-- C23 (layout): `get_hyper()` lists exactly the parameters of the documented layout – probits with
data first, then the kernel if it is tuned – in that order. -/
theorem C23_layout (s : HyperState R P) (hord : s.hasOrd → ∃ h, s.ord.getHyper = .ok h) :
    ∃ h, s.getHyper = .ok h ∧ h.map some = (layout s).map (readSlot s) := by
  obtain ⟨h, h1, h2⟩ := probit_layout s hord
  unfold HyperState.getHyper layout
  cases ho : s.onlyProbit
  · refine ⟨h ++ s.kern.getParam, ?_, ?_⟩
    · simp only [h1, bind, Except.bind]
      rfl
    · simp only [Bool.false_eq_true, if_false]
      rw [List.map_append, List.map_append, h2, kern_read]
  · refine ⟨h, ?_, ?_⟩
    · simp only [h1, bind, Except.bind]
      rfl
    · simp only [if_true, List.append_nil]
      exact h2

/-- The entry of the vector read back after setting it: ordinal thresholds come back as `|b|` (0 with
two ordinals). -/
def echo (s : HyperState R P) (slot : Slot) (v : R) : R :=
  if slot = .ordB then (if s.ord.n = 2 then 0 else |v|) else v

omit [IsStrictOrderedRing R] in
theorem zipWith_echo_of_ne (s : HyperState R P) (l : List Slot) (x : List R)
    (hlen : x.length = l.length) (h : Slot.ordB ∉ l) : List.zipWith (echo s) l x = x := by
  induction l generalizing x with
  | nil => simp_all
  | cons a l ih =>
    cases x with
    | nil => simp at hlen
    | cons b x =>
      simp only [List.mem_cons, not_or] at h
      simp only [List.zipWith_cons_cons]
      rw [ih x (by simpa using hlen) h.2]
      simp [echo, Ne.symm h.1]

/-- C23 (write then read): after `set_hyper(x)` with a vector of the advertised length every
parameter of the layout has the value at its position (ordinal thresholds: absolute value), every
parameter that is not part of the layout – in particular all parameters of probits without data – is
unchanged, the kernel keeps its structure, noise and zero point, and the layout itself is unchanged.
The model must have two or more ordinals if it has ordinal data. -/
theorem C23_set_then_read (s : HyperState R P) (x : List R)
    (hlen : x.length = (layout s).length)
    (hord : s.hasOrd → 2 ≤ s.ord.n ∧ ∃ h, s.ord.getHyper = .ok h) :
    ∃ s', s.setHyper x = .ok s' ∧ layout s' = layout s ∧
      (∀ (j : Nat) slot v, (layout s)[j]? = some slot → x[j]? = some v →
        readSlot s' slot = some (echo s slot v)) ∧
      (∀ slot, slot ∉ layout s → readSlot s' slot = readSlot s slot) ∧
      SameTree s.kern s'.kern ∧
      (s.hasPref = false → s'.pref = s.pref) ∧ (s.hasOrd = false → s'.ord = s.ord) ∧
      (s.hasAbs = false → s'.abs = s.abs) ∧
      s'.getHyper = .ok (List.zipWith (echo s) (layout s) x) := by
  classical
  set Lp : List Slot := if s.hasPref ∧ s.pref.optimize then [.prefSigma] else [] with hLp
  set Lo : List Slot := if s.hasOrd then [.ordSigma, .ordB] else [] with hLo
  set La : List Slot := if s.hasAbs ∧ s.abs.optimize then
    (if s.abs.vOnly then [.absV] else [.absSigma, .absV]) else [] with hLa
  set Lk : List Slot := if s.onlyProbit then [] else
    (leaves s.kern).zipIdx.flatMap fun (k, i) => (List.range (arity k)).map fun j => .kern i j
    with hLk
  have hlay : layout s = Lp ++ Lo ++ La ++ Lk := rfl
  have hLplen : Lp.length = (if s.hasPref then s.pref.getHyper else []).length := by
    rw [hLp]; cases s.hasPref <;> cases hh : s.pref.optimize <;> simp [PrefHyper.getHyper, hh]
  have hLolen : Lo.length = if s.hasOrd then 2 else 0 := by
    rw [hLo]; cases s.hasOrd <;> simp
  have hLalen : La.length = (if s.hasAbs then s.abs.getHyper else []).length := by
    rw [hLa]; cases s.hasAbs <;> cases hh : s.abs.optimize <;> cases hv : s.abs.vOnly <;>
      simp [AbsHyper.getHyper, hh, hv]
  have hLklen : s.onlyProbit = false → Lk.length = s.kern.len := by
    intro ho
    have := congrArg List.length (kern_read s)
    simp only [List.length_map] at this
    rw [hLk, ho, ← expr_len, ← this]
    rfl
  -- split the vector
  obtain ⟨xp, xo, xa, xk, rfl, hxp, hxo, hxa, hxk⟩ : ∃ xp xo xa xk, x = xp ++ xo ++ xa ++ xk ∧
      xp.length = Lp.length ∧ xo.length = Lo.length ∧ xa.length = La.length ∧
      xk.length = Lk.length := by
    rw [hlay] at hlen
    simp only [List.length_append] at hlen
    refine ⟨x.take Lp.length, (x.drop Lp.length).take Lo.length,
      (x.drop (Lp.length + Lo.length)).take La.length, x.drop (Lp.length + Lo.length + La.length),
      ?_, ?_, ?_, ?_, ?_⟩
    · conv_lhs => rw [← List.take_append_drop Lp.length x,
        ← List.take_append_drop Lo.length (x.drop Lp.length),
        ← List.take_append_drop La.length ((x.drop Lp.length).drop Lo.length)]
      simp only [List.drop_drop, List.append_assoc]
    all_goals simp only [List.length_take, List.length_drop]; omega
  obtain ⟨p', o', a', hset, ⟨hp1, hp2, hp3, hp4⟩, ⟨ho1, ho2⟩, ⟨ha1, ha2, ha3, ha4, ha5, ha6⟩⟩ :=
    setProbit_ok s xp xo xa (by omega) (by omega) (by omega) hord
  obtain ⟨h, hh, hhm⟩ := probit_layout s fun hx => (hord hx).2
  have hnum : h.length = (xp ++ xo ++ xa).length := by
    have := congrArg List.length hhm
    simp only [List.length_map] at this
    rw [this]
    change (Lp ++ Lo ++ La).length = _
    simp only [List.length_append]; omega
  have htake : (xp ++ xo ++ xa ++ xk).take h.length = xp ++ xo ++ xa := by
    rw [hnum, List.take_left]
  have hdrop : (xp ++ xo ++ xa ++ xk).drop h.length = xk := by
    rw [hnum, List.drop_left]
  -- the resulting state
  obtain ⟨k', hk1, hk2, hk3⟩ : ∃ k', s.setHyper (xp ++ xo ++ xa ++ xk) =
      .ok { s with pref := p', ord := o', abs := a', kern := k' } ∧ SameTree s.kern k' ∧
      (if s.onlyProbit then k' = s.kern else k'.getParam = xk) := by
    unfold HyperState.setHyper
    simp only [hh, bind, Except.bind, htake, hset, hdrop]
    cases ho : s.onlyProbit
    · obtain ⟨k', hk1, hk2, hk3⟩ := C25_round_trip s.kern xk (by rw [hxk, hLklen ho])
      refine ⟨k', ?_, hk3, by simpa using hk2⟩
      simp [hk1]
    · refine ⟨s.kern, by simp, ?_, by simp⟩
      obtain ⟨k', h1, -, h3⟩ := C25_round_trip s.kern s.kern.getParam (expr_len _)
      rw [C25_set_get, Except.ok.injEq] at h1
      rwa [← h1] at h3
  set s' : HyperState R P := { s with pref := p', ord := o', abs := a', kern := k' } with hs'
  have hkl : ((leaves k').zipIdx.flatMap fun (k, i) =>
        (List.range (arity k)).map fun j => Slot.kern i j) =
      (leaves s.kern).zipIdx.flatMap fun (k, i) =>
        (List.range (arity k)).map fun j => Slot.kern i j :=
    kern_slots_congr (sameTree_leaves hk2) 0
  have hlay' : layout s' = layout s := by
    simp only [layout, hs', hp2, ha2, ha3, hkl]
  have hget : s'.getHyper = .ok (List.zipWith (echo s) (layout s) (xp ++ xo ++ xa ++ xk)) := by
    have e1 : List.zipWith (echo s) Lp xp = xp := zipWith_echo_of_ne s _ _ hxp (by
      rw [hLp]; split <;> simp)
    have e3 : List.zipWith (echo s) La xa = xa := zipWith_echo_of_ne s _ _ hxa (by
      rw [hLa]; split <;> [split; skip] <;> simp)
    have e4 : List.zipWith (echo s) Lk xk = xk := zipWith_echo_of_ne s _ _ hxk (by
      rw [hLk]; split
      · simp
      · simp)
    have e2 : List.zipWith (echo s) Lo xo = if s.hasOrd then ordEcho s.ord.n xo else [] := by
      rw [hLo]
      rw [hLolen] at hxo
      cases ho : s.hasOrd
      · simp
      · simp only [ho, if_true] at hxo ⊢
        rcases xo with _ | ⟨a, _ | ⟨b, _ | ⟨c, l⟩⟩⟩ <;> simp at hxo
        simp [ordEcho, echo]
    have hprob : s'.getProbitHyper =
        .ok (xp ++ (if s.hasOrd then ordEcho s.ord.n xo else []) ++ xa) := by
      unfold HyperState.getProbitHyper HyperState.ordPart
      have hop : (if s'.hasOrd = true then s'.ord.getHyper else Except.ok []) =
          .ok (if s.hasOrd then ordEcho s.ord.n xo else []) := by
        change (if s.hasOrd = true then o'.getHyper else Except.ok []) = _
        cases ho : s.hasOrd
        · rfl
        · simp only [if_true, (ho2 ho).1]
      rw [hop]
      simp only [bind, Except.bind]
      change Except.ok ((if s.hasPref = true then p'.getHyper else []) ++ _ ++
        (if s.hasAbs = true then a'.getHyper else [])) = _
      rw [hp1, ha1]
    unfold HyperState.getHyper
    rw [hprob, hlay, List.zipWith_append (by simp only [List.length_append]; omega),
      List.zipWith_append (by simp only [List.length_append]; omega),
      List.zipWith_append (by omega), e1, e2, e3, e4]
    simp only [bind, Except.bind]
    change (if s.onlyProbit = true then _ else Except.ok (_ ++ k'.getParam)) = _
    cases ho : s.onlyProbit
    · simp only [ho, Bool.false_eq_true, if_false] at hk3 ⊢
      rw [hk3]
    · have : xk = [] := by
        apply List.length_eq_zero_iff.1
        rw [hxk, hLk, ho]; rfl
      simp [this]
  have hord' : s'.hasOrd → ∃ h, s'.ord.getHyper = .ok h := fun hx => ⟨_, (ho2 hx).1⟩
  refine ⟨s', hk1, hlay', ?_, ?_, hk2, hp3, ho1, ha4, hget⟩
  · intro j slot v hj hv
    obtain ⟨g, hg1, hg2⟩ := C23_layout s' hord'
    rw [hget, Except.ok.injEq] at hg1
    rw [← hg1, hlay'] at hg2
    have := congrArg (fun l => l[j]?) hg2
    simp only [List.getElem?_map, List.getElem?_zipWith, hj, hv] at this
    simpa using this.symm
  · intro slot hslot
    rw [hlay] at hslot
    simp only [List.mem_append, not_or] at hslot
    obtain ⟨⟨⟨n1, n2⟩, n3⟩, n4⟩ := hslot
    cases slot with
    | prefSigma =>
      have : p' = s.pref := by
        cases hp : s.hasPref
        · exact hp3 hp
        · cases hop : s.pref.optimize
          · exact hp4 hop
          · simp [hLp, hp, hop] at n1
      change some p'.sigma = some s.pref.sigma
      rw [this]
    | ordSigma =>
      have : o' = s.ord := by
        cases hp : s.hasOrd
        · exact ho1 hp
        · simp [hLo, hp] at n2
      change some o'.sigma = some s.ord.sigma
      rw [this]
    | ordB =>
      have : o' = s.ord := by
        cases hp : s.hasOrd
        · exact ho1 hp
        · simp [hLo, hp] at n2
      change ordTop o' = ordTop s.ord
      rw [this]
    | absSigma =>
      have : a'.sigma = s.abs.sigma := by
        cases hp : s.hasAbs
        · rw [ha4 hp]
        · cases hop : s.abs.optimize
          · rw [ha5 hop]
          · cases hv : s.abs.vOnly
            · simp [hLa, hp, hop, hv] at n3
            · exact ha6 hv
      change some a'.sigma = some s.abs.sigma
      rw [this]
    | absV =>
      have : a' = s.abs := by
        cases hp : s.hasAbs
        · exact ha4 hp
        · cases hop : s.abs.optimize
          · exact ha5 hop
          · cases hv : s.abs.vOnly <;> simp [hLa, hp, hop, hv] at n3
      change some a'.v = some s.abs.v
      rw [this]
    | kern i j =>
      change ((leaves k')[i]?).bind (fun k => field k j) = ((leaves s.kern)[i]?).bind fun k => field k j
      cases ho : s.onlyProbit
      · exact kern_field_none (sameTree_leaves hk2) i j (by
          simpa [hLk, ho] using n4)
      · simp only [ho, if_true] at hk3
        rw [hk3]

/-- C23 (read then write): `set_hyper(get_hyper())` changes nothing, provided the ordinal thresholds
come from a number (constructor, `set_hyper`, `set_num_ordinals`). -/
theorem C23_read_then_set (s : HyperState R P) (h : List R) (hh : s.getHyper = .ok h)
    (hu : s.hasOrd → 2 ≤ s.ord.n ∧ Uniform s.ord) : s.setHyper h = .ok s :=
  set_get_hyper s h hh hu

/-- C23, error branch: a vector with fewer entries than the probits have hyper-parameters is refused with `IndexError`. -/
theorem C23_short (s : HyperState R P) (h x : List R) (hh : s.getProbitHyper = .ok h)
    (hn : s.hasOrd → 1 ≤ s.ord.n) (hx : x.length < h.length) :
    s.setProbitHyper x = .error .indexError ∧ s.setHyper x = .error .indexError := by
  have key : ∀ x : List R, x.length < h.length → s.setProbitHyper x = .error .indexError := by
    intro x hx
    have hlenw : ∀ a b : Nat, ((x.take b).drop a).length = min b x.length - a := by
      intro a b
      simp
    have hP : if x.length < (if s.hasPref then s.pref.getHyper else []).length
        then s.setPrefPart x 0 = .error .indexError
        else ∃ p, s.setPrefPart x 0 = .ok (p, (if s.hasPref then s.pref.getHyper else []).length) := by
      unfold HyperState.setPrefPart PrefHyper.getHyper
      have := hlenw 0 1
      cases s.hasPref <;> cases ho : s.pref.optimize <;> simp [PrefHyper.setHyper, ho, bind, Except.bind]
      cases x with
      | nil => simp
      | cons v x => simp
    have hO : ∀ (cur : Nat) l, s.ordPart = .ok l →
        if x.length < cur + l.length ∧ l ≠ [] then s.setOrdPart x cur = .error .indexError
        else ∃ o, s.setOrdPart x cur = .ok (o, cur + l.length) := by
      intro cur l hl
      unfold HyperState.ordPart at hl
      unfold HyperState.setOrdPart
      cases hb : s.hasOrd with
      | false => simp [hb] at hl; subst hl; simp
      | true =>
        simp only [hb, if_true] at hl
        have hl2 : l.length = 2 := by
          unfold OrdHyper.getHyper at hl
          split at hl <;> cases hl
          rfl
        have hne : l ≠ [] := by rintro rfl; simp at hl2
        have hw := hlenw cur (cur + 2)
        simp only [hl, bind, Except.bind, if_true, hl2, hne, ne_eq, not_false_eq_true, and_true]
        generalize (x.take (cur + 2)).drop cur = w at hw
        split
        · match w, hw with
          | [], _ => simp [OrdHyper.setHyper]
          | [_], _ => simp [OrdHyper.setHyper]
          | _ :: _ :: _, hw => simp at hw; omega
        · match w, hw with
          | [], hw => simp at hw; omega
          | [_], hw => simp at hw; omega
          | a :: b :: _, _ =>
            simp only [OrdHyper.setHyper]
            rw [setB_scalar { s.ord with sigma := a } b (hn hb)]
            exact ⟨_, rfl⟩
    have hA : ∀ cur : Nat, x.length < cur + (if s.hasAbs then s.abs.getHyper else []).length →
        (if s.hasAbs then s.abs.getHyper else []) ≠ [] → s.setAbsPart x cur = .error .indexError := by
      intro cur h1 h2
      unfold HyperState.setAbsPart
      unfold AbsHyper.getHyper at *
      cases hb : s.hasAbs
      · simp [hb] at h2
      cases ho : s.abs.optimize
      · simp [ho] at h2
      cases hv : s.abs.vOnly
      · simp only [hb, ho, hv, if_true, Bool.false_eq_true, if_false, List.length_cons, List.length_nil] at h1
        have hw := hlenw cur (cur + 2)
        simp only [if_true, Bool.false_eq_true, if_false, List.length_cons, List.length_nil, AbsHyper.setHyper, ho, hv,
          Nat.zero_add, Nat.reduceAdd]
        generalize (x.take (cur + 2)).drop cur = w at hw
        match w, hw with
        | [], _ => rfl
        | [_], _ => rfl
        | _ :: _ :: _, hw => simp at hw; omega
      · simp only [hb, ho, hv, if_true, List.length_cons, List.length_nil] at h1
        have hw := hlenw cur (cur + 1)
        simp only [if_true, List.length_cons, List.length_nil, AbsHyper.setHyper, ho, hv,
          Nat.zero_add]
        generalize (x.take (cur + 1)).drop cur = w at hw
        match w, hw with
        | [], _ => rfl
        | _ :: _, hw => simp at hw; omega
    unfold HyperState.getProbitHyper at hh
    cases hl : s.ordPart with
    | error e => rw [hl] at hh; cases hh
    | ok l =>
      rw [hl] at hh
      have hh' := Except.ok.inj hh
      rw [← hh'] at hx
      simp only [List.length_append] at hx
      unfold HyperState.setProbitHyper
      generalize (if s.hasPref then s.pref.getHyper else []) = lp at hP hx
      split at hP
      · rw [hP]; rfl
      · next hp =>
        obtain ⟨p, hp'⟩ := hP
        rw [hp']
        simp only [bind, Except.bind]
        have := hO lp.length l hl
        split at this
        · rw [this]
        · next ho =>
          obtain ⟨o, ho'⟩ := this
          rw [ho']
          simp only
          have hlt : ¬ x.length < lp.length + l.length := by
            intro hc
            apply ho
            refine ⟨hc, ?_⟩
            rintro rfl
            exact hp hc
          rw [hA _ hx (by
            intro h0
            rw [h0] at hx
            exact hlt hx)]
  refine ⟨key x hx, ?_⟩
  unfold HyperState.setHyper
  rw [hh]
  simp only [bind, Except.bind]
  rw [key (x.take h.length) (by simp; omega)]

/-- C23 (round trip), partial: after `set_hyper(x)`, `get_hyper()` returns `x`, provided the entry
for the ordinal threshold is not negative and there are at least three ordinals.
Missing for the full claim: these two provisos, which are necessary (see the counterexamples). -/
theorem C23_round_trip_partial (s : HyperState R P) (x : List R)
    (hlen : x.length = (layout s).length)
    (hord : s.hasOrd → 3 ≤ s.ord.n ∧ Uniform s.ord)
    (hb : ∀ (j : Nat) v, (layout s)[j]? = some .ordB → x[j]? = some v → 0 ≤ v) :
    ∃ s', s.setHyper x = .ok s' ∧ s'.getHyper = .ok x ∧ layout s' = layout s := by
  obtain ⟨s', h1, h2, -, -, -, -, -, -, h3⟩ := C23_set_then_read s x hlen (fun ho => by
    obtain ⟨hn, hU⟩ := hord ho
    obtain ⟨top, h0, hz, hbc⟩ := uniform_eq_cuts (by omega) hU
    refine ⟨by omega, [s.ord.sigma, |top|], ?_⟩
    have := cuts_getHyper s.ord top hn
    rwa [← hbc] at this)
  refine ⟨s', h1, ?_, h2⟩
  rw [h3]
  congr 1
  refine List.ext_getElem? fun j => ?_
  rw [List.getElem?_zipWith]
  by_cases hj : j < (layout s).length
  · obtain ⟨slot, hs⟩ : ∃ a, (layout s)[j]? = some a := ⟨_, List.getElem?_eq_getElem hj⟩
    obtain ⟨v, hv⟩ : ∃ a, x[j]? = some a := ⟨_, List.getElem?_eq_getElem (hlen ▸ hj)⟩
    rw [hs, hv]
    simp only [Option.some.injEq]
    unfold echo
    split
    · rename_i hslot
      have ho : s.hasOrd := by
        by_contra hc
        have hmem : Slot.ordB ∈ layout s := by
          have := List.mem_of_getElem? hs
          rwa [hslot] at this
        simp only [layout, hc, List.mem_append] at hmem
        rcases hmem with ((h | h) | h) | h
        · split at h <;> simp at h
        · simp at h
        · split at h
          · split at h <;> simp at h
          · simp at h
        · split at h <;> simp at h
      have := (hord ho).1
      rw [if_neg (by omega), abs_of_nonneg (hb j v (hslot ▸ hs) hv)]
    · rfl
  · rw [List.getElem?_eq_none (by omega), List.getElem?_eq_none (by omega)]

/-- An ordinal probit with five categories and threshold 1, as constructed by default. -/
def ord5 : OrdHyper ℚ := ⟨1, 5, [.neg, .fin 0, .fin (1 / 3), .fin (2 / 3), .fin 1, .pos]⟩

/-- The default model (`PreferenceModel.py:49`) with an RBF kernel that is tuned too; the flags say
which labels have data. -/
def exampleState (p o a : Bool) (only : Bool) : HyperState ℚ Unit :=
  ⟨⟨1 / 2, true⟩, ord5, ⟨1, 80, true, true⟩, p, o, a, .leaf (.rbf 1 2 (1 / 100)), only⟩

/-- Preference pairs, ordinal labels and ratings with one, two and one hyper-parameters: three entries are too few. -/
example : (exampleState true true true true).setHyper [1, 2, 3] = .error .indexError := by
  decide +kernel

/-- C23 round trip fails for a negative ordinal threshold, which is silently replaced by its absolute
value. -/
theorem C23_negative_threshold_counterexample :
    ∃ (s : HyperState ℚ Unit) (x : List ℚ), x.length = (layout s).length ∧ Uniform s.ord ∧
      3 ≤ s.ord.n ∧ ∃ s', s.setHyper x = .ok s' ∧ s'.getHyper ≠ .ok x := by
  refine ⟨exampleState false true false true, [1, -2], by decide +kernel, ?_, by decide, ?_⟩
  · refine ⟨1, by norm_num, by decide, rfl, rfl, rfl, ?_⟩
    intro i h1 h2
    have h2 : i < 5 := h2
    interval_cases i <;> simp [exampleState, ord5] <;> norm_num
  · refine ⟨{ exampleState false true false true with
      ord := ⟨1, 5, [.neg, .fin 0, .fin (2 / 3), .fin (4 / 3), .fin 2, .pos]⟩ }, ?_, ?_⟩ <;>
      decide +kernel

/-- Reading and writing back changes explicitly given breakpoints: they are replaced by equally
spaced ones. -/
theorem C23_breakpoints_counterexample :
    ∃ (s : HyperState ℚ Unit) (h : List ℚ) (s' : HyperState ℚ Unit),
      (∃ o : OrdHyper ℚ, o.setB (.vec [.fin 0, .fin 1, .fin 3]) = .ok s.ord) ∧
      s.getHyper = .ok h ∧ s.setHyper h = .ok s' ∧ s'.ord.b ≠ s.ord.b := by
  refine ⟨{ exampleState false true false true with
      ord := ⟨1, 4, [.neg, .fin 0, .fin 1, .fin 3, .pos]⟩ }, [1, 3],
    { exampleState false true false true with
      ord := ⟨1, 4, [.neg, .fin 0, .fin (3 / 2), .fin 3, .pos]⟩ }, ⟨⟨1, 4, []⟩, ?_⟩, ?_, ?_, ?_⟩ <;>
    decide +kernel

/-- All three label kinds and the kernel: six parameters. -/
example : layout (exampleState true true true false) =
    [.prefSigma, .ordSigma, .ordB, .absV, .kern 0 0, .kern 0 1] := by decide +kernel

example : (exampleState true true true false).getHyper = .ok [1 / 2, 1, 1, 80, 1, 2] := by
  decide +kernel

example : ∃ s', (exampleState true true true false).setHyper [1, 2, 3, 4, 5, 6] = .ok s' ∧
    s'.getHyper = .ok [1, 2, 3, 4, 5, 6] := by
  refine ⟨{ exampleState true true true false with
    pref := ⟨1, true⟩, ord := ⟨2, 5, [.neg, .fin 0, .fin 1, .fin 2, .fin 3, .pos]⟩,
    abs := ⟨1, 4, true, true⟩, kern := .leaf (.rbf 5 6 (1 / 100)) }, ?_, ?_⟩ <;> decide +kernel

/-! ## C24 random restarts -/

/-- C24, partial: `randomize_hyper` gives every tunable parameter a draw from its own prior when
there is preference data, no ordinal data, and either only the probits are tuned or there is rating
data too and the kernel is not composite. Missing for the full claim: all other combinations; they
are wrong (see the counterexamples). -/
theorem C24_own_prior_partial (s : HyperState R P) (rng : Nat → R → R → R)
    (hp : s.hasPref = true) (hpo : s.pref.optimize = true) (ho : s.hasOrd = false)
    (ha : s.hasAbs = true → s.abs.optimize = true)
    (hk : s.onlyProbit = true ∨ (s.hasAbs = true ∧ ∃ k, s.kern = .leaf k)) :
    ∃ s', s.randomizeHyper rng = .ok s' ∧ DrawnFromOwnPrior rng s s' := by
  rcases s with ⟨⟨ps, po⟩, o, ⟨as, v, ao, vo⟩, hp', ho', ha', k, only⟩
  simp only at hp hpo ho ha hk
  subst hp hpo ho
  let idx : Slot → Nat := fun
    | .prefSigma => 0 | .absSigma => 1 | .absV => if vo then 1 else 2
    | .kern _ j => j + (if vo then 2 else 3) | _ => 100
  cases ha' with
  | false =>
    simp only [Bool.false_eq_true, false_and, or_false] at hk
    subst hk
    cases vo <;> refine ⟨_, rfl, idx, ?_, ?_⟩ <;> intro a hm <;>
      simp only [layout, Bool.false_eq_true, if_true, if_false, true_and, false_and, and_true,
        List.append_nil, List.mem_singleton, List.singleton_append, List.mem_cons, List.not_mem_nil,
        or_false] at hm ⊢ <;> subst hm
    · intro b hb _; exact hb.symm
    · exact ⟨_, rfl, rfl⟩
    · intro b hb _; exact hb.symm
    · exact ⟨_, rfl, rfl⟩
  | true =>
    have := ha rfl
    subst this
    rcases hk with hk | ⟨-, k0, hk⟩
    · subst hk
      cases vo <;> refine ⟨_, rfl, idx, ?_, ?_⟩ <;> intro a hm <;>
        simp only [layout, Bool.false_eq_true, if_true, if_false, true_and, and_true,
          List.append_nil, List.singleton_append, List.cons_append, List.nil_append, List.mem_cons,
          List.not_mem_nil, or_false] at hm ⊢
      · intro b hb hab
        rcases hm with rfl | rfl | rfl <;> rcases hb with rfl | rfl | rfl <;> simp [idx] at hab ⊢
      · rcases hm with rfl | rfl | rfl <;> exact ⟨_, rfl, rfl⟩
      · intro b hb hab
        rcases hm with rfl | rfl <;> rcases hb with rfl | rfl <;> simp [idx] at hab ⊢
      · rcases hm with rfl | rfl <;> exact ⟨_, rfl, rfl⟩
    · subst hk
      cases only
      all_goals
        cases vo <;> cases k0 <;> refine ⟨_, rfl, idx, ?_, ?_⟩
      all_goals
        intro a hm
        simp [layout, leaves, List.range_succ, arity] at hm
        first
          | (rcases hm with rfl | rfl | rfl | rfl | rfl | rfl <;> exact ⟨_, rfl, rfl⟩)
          | (rcases hm with rfl | rfl | rfl | rfl | rfl <;> exact ⟨_, rfl, rfl⟩)
          | (rcases hm with rfl | rfl | rfl | rfl <;> exact ⟨_, rfl, rfl⟩)
          | (rcases hm with rfl | rfl | rfl <;> exact ⟨_, rfl, rfl⟩)
          | (rcases hm with rfl | rfl <;> exact ⟨_, rfl, rfl⟩)
          | (intro b hb hab
             simp [layout, leaves, List.range_succ, arity] at hb
             first
               | (rcases hm with rfl | rfl | rfl | rfl | rfl | rfl <;>
                    rcases hb with rfl | rfl | rfl | rfl | rfl | rfl <;>
                    first | rfl | (exfalso; simp [idx] at hab))
               | (rcases hm with rfl | rfl | rfl | rfl | rfl <;>
                    rcases hb with rfl | rfl | rfl | rfl | rfl <;>
                    first | rfl | (exfalso; simp [idx] at hab))
               | (rcases hm with rfl | rfl | rfl | rfl <;>
                    rcases hb with rfl | rfl | rfl | rfl <;>
                    first | rfl | (exfalso; simp [idx] at hab))
               | (rcases hm with rfl | rfl | rfl <;>
                    rcases hb with rfl | rfl | rfl <;>
                    first | rfl | (exfalso; simp [idx] at hab))
               | (rcases hm with rfl | rfl <;>
                    rcases hb with rfl | rfl <;>
                    first | rfl | (exfalso; simp [idx] at hab)))

omit [LinearOrder R] [IsStrictOrderedRing R] in
/-- Only ratings were given (the common absolute-feedback setting): the precision `v` receives the
draw made from the *preference noise* prior. -/
theorem C24_ratings_only_counterexample :
    ∃ (rng : Nat → ℚ → ℚ → ℚ) (s s' : HyperState ℚ Unit), s.hasAbs = true ∧ s.hasOrd = false ∧
      s.randomizeHyper rng = .ok s' ∧ (∀ q, priorOf s .absV = some q → readSlot s' .absV =
        some (rng 0 (2 : ℚ) (1 / 10)) ∧ ∀ i, readSlot s' .absV ≠ some (rng i q.1 q.2)) := by
  refine ⟨fun _ _ θ => θ, exampleState false false true true,
    { exampleState false false true true with abs := ⟨1, 1 / 10, true, true⟩ }, rfl, rfl,
    by decide +kernel, ?_⟩
  intro q hq
  simp only [priorOf, Option.some.injEq] at hq
  subst hq
  exact ⟨by decide +kernel, fun _ => by simp [readSlot]; norm_num⟩

/-- Preferences only with a tuned RBF kernel: the kernel scale receives the draw made from the prior
of the rating precision. -/
theorem C24_kernel_counterexample :
    ∃ (rng : Nat → ℚ → ℚ → ℚ) (s s' : HyperState ℚ Unit), s.hasPref = true ∧ s.hasAbs = false ∧
      s.hasOrd = false ∧ s.randomizeHyper rng = .ok s' ∧ ¬ DrawnFromOwnPrior rng s s' := by
  refine ⟨fun _ _ θ => θ, exampleState true false false false,
    { exampleState true false false false with
      pref := ⟨1 / 10, true⟩, kern := .leaf (.rbf 25 (1 / 10) (1 / 100)) }, rfl, rfl, rfl,
    by decide +kernel, ?_⟩
  rintro ⟨idx, -, h⟩
  obtain ⟨q, hq, hr⟩ := h (.kern 0 0) (by decide +kernel)
  have hq' : q = (10, 1 / 10) := by
    have : priorOf (exampleState true false false false) (.kern 0 0) = some (10, 1 / 10) := by
      decide +kernel
    rw [this] at hq
    exact (Option.some.inj hq).symm
  subst hq'
  simp [readSlot, leaves, field] at hr
  norm_num at hr

/-- With all three label kinds, or with a composite kernel, `randomize_hyper` raises `IndexError`. -/
theorem C24_raises_counterexample :
    (∀ rng, (exampleState true true true true).randomizeHyper rng = .error .indexError) ∧
    (∀ rng, ({ exampleState true false true false with
        kern := .dual .add (.leaf (.rbf 1 1 0)) (.leaf (.linear 1 1 0)) } :
        HyperState ℚ Unit).randomizeHyper rng = .error .indexError) := by
  constructor <;> intro rng <;> rfl

/-- The hypotheses of the partial theorem hold for preferences and ratings with a tuned RBF kernel. -/
example : ∃ s', (exampleState true false true false).randomizeHyper (fun i _ _ => i) = .ok s' ∧
    s'.getHyper = .ok [0, 1, 2, 3] := by
  refine ⟨{ exampleState true false true false with
    pref := ⟨0, true⟩
    abs := ⟨1, 1, true, true⟩
    kern := .leaf (.rbf 2 3 (1 / 100)) }, ?_, ?_⟩ <;> decide +kernel

end

end Lop.Props
