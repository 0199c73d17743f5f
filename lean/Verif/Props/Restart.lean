import Verif.Props.Hyper
import Verif.Spec.Restart
import Mathlib.Data.List.Infix

/-! # C24: random restarts, exactly -/

namespace Lop.Props

open Spec

section
variable {R P : Type} [Field R] [LinearOrder R] [IsStrictOrderedRing R]

omit [Field R] [LinearOrder R] [IsStrictOrderedRing R] in
theorem leaf_set_take (k : KLeaf R P) (x : List R) (m : Nat) (h : arity k ≤ m) : k.setParam (x.take m) = k.setParam x := by
  cases k <;> simp only [arity] at h
  all_goals
    rcases m with _ | _ | _ | m <;> first
      | omega
      | (rcases x with _ | ⟨a, _ | ⟨b, _ | ⟨c, r⟩⟩⟩ <;> simp [KLeaf.setParam])

omit [Field R] [LinearOrder R] [IsStrictOrderedRing R] in
theorem expr_set_take (k : KExpr R P) (x : List R) (m : Nat) (h : k.len ≤ m) : k.setParam (x.take m) = k.setParam x := by
  induction k generalizing x m with
  | leaf k => simp only [KExpr.setParam]; rw [leaf_set_take k x m (by simpa [KExpr.len, leaf_len'] using h)]
  | dual op a b iha ihb =>
    simp only [KExpr.len] at h
    simp only [KExpr.setParam, expr_len]
    rw [List.take_take, min_eq_left (by omega), List.drop_take, ihb _ _ (by omega)]

omit [IsStrictOrderedRing R] in
theorem probit_num (s : HyperState R P) (hord : s.hasOrd → ∃ h, s.ord.getHyper = .ok h) :
    ∃ h, s.getProbitHyper = .ok h ∧ (layout s).length = h.length + if s.onlyProbit then 0 else s.kern.len := by
  obtain ⟨h, h1, h2⟩ := probit_layout s hord
  refine ⟨h, h1, ?_⟩
  have e := congrArg List.length h2
  have e' := congrArg List.length (kern_read s)
  simp only [List.length_map] at e e'
  unfold layout
  rw [List.length_append, ← e]
  cases s.onlyProbit
  · simp only [Bool.false_eq_true, if_false]
    rw [e', expr_len]
  · simp

/-- Only the first entries of a vector that is too long count. -/
theorem setHyper_take (s : HyperState R P) (hord : s.hasOrd → ∃ h, s.ord.getHyper = .ok h) (x : List R) :
    s.setHyper (x.take (layout s).length) = s.setHyper x := by
  obtain ⟨h, h1, h2⟩ := probit_num s hord
  unfold HyperState.setHyper
  simp only [h1, bind, Except.bind]
  rw [List.take_take, min_eq_left (by omega)]
  cases hs : s.setProbitHyper (x.take h.length) with
  | error e => rfl
  | ok s1 =>
    have hk : s1.kern = s.kern ∧ s1.onlyProbit = s.onlyProbit := by
      unfold HyperState.setProbitHyper at hs
      simp only [bind, Except.bind] at hs
      split at hs
      · cases hs
      · split at hs
        · cases hs
        · split at hs
          · cases hs
          · cases hs; exact ⟨rfl, rfl⟩
    simp only
    cases ho : s1.onlyProbit with
    | true => rfl
    | false =>
      simp only [Bool.false_eq_true, if_false]
      rw [List.drop_take, hk.1, expr_set_take]
      rw [h2, ← hk.2, ho]
      simp

/-- A vector that is too short is refused. -/
theorem setHyper_short (s : HyperState R P) (hord : s.hasOrd → 2 ≤ s.ord.n ∧ ∃ h, s.ord.getHyper = .ok h) (x : List R)
    (hx : x.length < (layout s).length) : s.setHyper x = .error .indexError := by
  obtain ⟨h, h1, h2⟩ := probit_num s (fun ho => (hord ho).2)
  by_cases hxh : x.length < h.length
  · exact (C23_short s h x h1 (fun ho => by have := (hord ho).1; omega) hxh).2
  · have hl : (x.take h.length).length = (layout { s with onlyProbit := true }).length := by
      obtain ⟨h', h1', h2'⟩ := probit_num { s with onlyProbit := true } (fun ho => (hord ho).2)
      have : h = h' := by
        have e : ({ s with onlyProbit := true } : HyperState R P).getProbitHyper = s.getProbitHyper := rfl
        rw [e, h1] at h1'
        exact Except.ok.inj h1'
      subst this
      rw [h2', List.length_take]
      simp; omega
    obtain ⟨s1, e1, -, -, -, e2, -⟩ := C23_set_then_read { s with onlyProbit := true } (x.take h.length) hl hord
    unfold HyperState.setHyper at e1 ⊢
    have e0 : ({ s with onlyProbit := true } : HyperState R P).getProbitHyper = .ok h := h1
    simp only [e0, h1, bind, Except.bind, List.take_take, min_self] at e1 ⊢
    have e3 : ({ s with onlyProbit := true } : HyperState R P).setProbitHyper (x.take h.length) =
        (s.setProbitHyper (x.take h.length)).map fun t => { t with onlyProbit := true } := by
      unfold HyperState.setProbitHyper
      have a1 : ∀ y c, ({ s with onlyProbit := true } : HyperState R P).setPrefPart y c = s.setPrefPart y c := fun _ _ => rfl
      have a2 : ∀ y c, ({ s with onlyProbit := true } : HyperState R P).setOrdPart y c = s.setOrdPart y c := fun _ _ => rfl
      have a3 : ∀ y c, ({ s with onlyProbit := true } : HyperState R P).setAbsPart y c = s.setAbsPart y c := fun _ _ => rfl
      simp only [a1, a2, a3, bind, Except.bind]
      cases s.setPrefPart (x.take h.length) 0 with
      | error e => rfl
      | ok a =>
        simp only
        cases s.setOrdPart (x.take h.length) a.2 with
        | error e => rfl
        | ok b =>
          simp only
          cases s.setAbsPart (x.take h.length) b.2 <;> rfl
    rw [e3] at e1
    cases hs : s.setProbitHyper (x.take h.length) with
    | error e => rw [hs] at e1; simp [Except.map] at e1
    | ok s2 =>
      have hk : s2.kern = s.kern ∧ s2.onlyProbit = s.onlyProbit := by
        unfold HyperState.setProbitHyper at hs
        simp only [bind, Except.bind] at hs
        split at hs
        · cases hs
        · split at hs
          · cases hs
          · split at hs
            · cases hs
            · cases hs; exact ⟨rfl, rfl⟩
      simp only
      rw [hk.2]
      cases ho : s.onlyProbit with
      | true => rw [ho] at h2; simp at h2; omega
      | false =>
        simp only [Bool.false_eq_true, if_false]
        rw [hk.1, expr_set_short]
        rw [ho] at h2
        simp only [Bool.false_eq_true, if_false] at h2
        simp; omega

omit [LinearOrder R] [IsStrictOrderedRing R] in
theorem drawAll_get (rng : Nat → R → R → R) (l : List (R × R)) (j : Nat) :
    (drawAll rng l)[j]? = (l[j]?).map fun q => rng j q.1 q.2 := by
  simp [drawAll, List.getElem?_zipIdx]
  cases l[j]? <;> rfl

omit [LinearOrder R] [IsStrictOrderedRing R] in
theorem drawAll_length (rng : Nat → R → R → R) (l : List (R × R)) : (drawAll rng l).length = l.length := by
  simp [drawAll]

omit [LinearOrder R] [IsStrictOrderedRing R] in
theorem leaf_requests (s : HyperState R P) (k : KLeaf R P) (hk : s.kern = .leaf k) :
    (List.range (arity k)).filterMap (fun j => priorOf s (.kern 0 j)) = (KLeaf.priors k : List (R × R)) := by
  cases k <;> simp [priorOf, hk, leaves, arity, KLeaf.priors, List.range_succ]

omit [IsStrictOrderedRing R] in
theorem setHyper_frame {s s' : HyperState R P} {x : List R} (h : s.setHyper x = .ok s') :
    s'.hasOrd = s.hasOrd ∧ s'.ord.n = s.ord.n ∧ s'.onlyProbit = s.onlyProbit := by
  have hn : ∀ {o o' : OrdHyper R} {y}, o.setHyper y = .ok o' → o'.n = o.n := by
    intro o o' y hy
    unfold OrdHyper.setHyper at hy
    split at hy
    · unfold OrdHyper.setB at hy
      simp only at hy
      split at hy
      · cases hy
      · cases hy; rfl
    · cases hy
  have hp : ∀ {s s' : HyperState R P} {y}, s.setProbitHyper y = .ok s' →
      s'.hasOrd = s.hasOrd ∧ s'.ord.n = s.ord.n ∧ s'.onlyProbit = s.onlyProbit := by
    intro s s' y hs
    unfold HyperState.setProbitHyper at hs
    simp only [bind, Except.bind] at hs
    split at hs
    · cases hs
    · split at hs
      · cases hs
      · rename_i a _ b hb
        split at hs
        · cases hs
        · cases hs
          refine ⟨rfl, ?_, rfl⟩
          unfold HyperState.setOrdPart at hb
          split at hb
          · simp only [bind, Except.bind] at hb
            split at hb
            · cases hb
            · split at hb
              · cases hb
              · rename_i hc
                cases hb
                exact hn hc
          · cases hb; rfl
  unfold HyperState.setHyper at h
  simp only [bind, Except.bind] at h
  split at h
  · cases h
  · split at h
    · cases h
    · rename_i s1 h1
      split at h
      · cases h; exact hp h1
      · split at h
        · cases h
        · cases h
          obtain ⟨a, b, c⟩ := hp h1
          exact ⟨a, b, c⟩

theorem set_draws (s : HyperState R P) (rng : Nat → R → R → R)
    (hord : s.hasOrd → 2 ≤ s.ord.n ∧ ∃ h, s.ord.getHyper = .ok h) (l : List (R × R))
    (hl : (layout s).length ≤ l.length) : ∃ s', s.setHyper (drawAll rng l) = .ok s' ∧ layout s' = layout s ∧
      (∀ (j : Nat) slot q, (layout s)[j]? = some slot → l[j]? = some q →
        readSlot s' slot = some (echo s slot (rng j q.1 q.2))) ∧
      s'.ord.n = s.ord.n ∧ s'.onlyProbit = s.onlyProbit ∧ (s'.hasOrd → 2 ≤ s'.ord.n ∧ ∃ h, s'.ord.getHyper = .ok h) := by
  obtain ⟨s', h1, h2, h3, -, -, -, -, -, h4⟩ := C23_set_then_read s ((drawAll rng l).take (layout s).length)
    (by simp [drawAll_length]; omega) hord
  rw [setHyper_take s (fun ho => (hord ho).2)] at h1
  obtain ⟨f1, f2, f3⟩ := setHyper_frame h1
  refine ⟨s', h1, h2, fun j slot q hj hq => ?_, f2, f3, fun ho => ?_⟩
  · refine h3 j slot _ hj ?_
    have hjl : j < (layout s).length := (List.getElem?_eq_some_iff.1 hj).1
    rw [List.getElem?_take, if_pos hjl, drawAll_get, hq]
    rfl
  · refine ⟨by rw [f2]; exact (hord (f1 ▸ ho)).1, ?_⟩
    unfold HyperState.getHyper HyperState.getProbitHyper HyperState.ordPart at h4
    rw [if_pos ho] at h4
    cases hg : s'.ord.getHyper with
    | ok g => exact ⟨g, rfl⟩
    | error e => rw [hg] at h4; simp [bind, Except.bind] at h4

/-- C24, exactly what a random restart does: the draws are handed out by position. The parameter at position `j` of
`get_hyper` gets the `j`-th draw, made from the `j`-th of the sampled priors (ordinal thresholds: its absolute value),
whoever's prior that is; with fewer draws than parameters the call raises. -/
theorem C24_positions (s : HyperState R P) (rng : Nat → R → R → R)
    (hord : s.hasOrd → 2 ≤ s.ord.n ∧ ∃ h, s.ord.getHyper = .ok h) :
    ((layout s).length ≤ (drawnPriors s).length → ∃ s', s.randomizeHyper rng = .ok s' ∧ layout s' = layout s ∧
      ∀ (j : Nat) slot q, (layout s)[j]? = some slot → (drawnPriors s)[j]? = some q →
        readSlot s' slot = some (echo s slot (rng j q.1 q.2))) ∧
    ((drawnPriors s).length < (layout s).length → s.randomizeHyper rng = .error .indexError) := by
  have hreq : drawnPriors s = (s.pref.randomRequests ++ s.ord.randomRequests ++ s.abs.randomRequests) ++
      if s.onlyProbit then [] else s.kern.randomRequests := by
    unfold drawnPriors PrefHyper.randomRequests OrdHyper.randomRequests AbsHyper.randomRequests
    rw [List.append_nil]
    congr 1
    split_ifs
    · rfl
    · cases hk : s.kern with
      | leaf k => simp only [KExpr.randomRequests]; exact leaf_requests s k hk
      | dual op a b => rfl
  rw [hreq]
  unfold HyperState.randomizeHyper
  cases ho : s.onlyProbit with
  | false =>
    simp only [Bool.false_eq_true, if_false, bind, Except.bind]
    refine ⟨fun hl => ?_, fun hl => setHyper_short s hord _ (by rw [drawAll_length]; exact hl)⟩
    obtain ⟨s', h1, h2, h3, -⟩ := set_draws s rng hord _ hl
    exact ⟨s', h1, h2, h3⟩
  | true =>
    simp only [if_true, bind, Except.bind, List.append_nil]
    rw [show s.pref.randomRequests ++ s.ord.randomRequests ++ s.abs.randomRequests =
      s.pref.randomRequests ++ s.abs.randomRequests by simp [OrdHyper.randomRequests]]
    refine ⟨fun hl => ?_, fun hl => ?_⟩
    · obtain ⟨s1, h1, h2, h3, h4, h5, h6⟩ := set_draws s rng hord _ hl
      rw [h1]
      simp only
      obtain ⟨s2, k1, k2, k3, -⟩ := set_draws s1 rng h6
        (s.pref.randomRequests ++ s.abs.randomRequests ++ s1.kern.randomRequests) (by rw [h2, List.length_append]; omega)
      refine ⟨s2, k1, k2.trans h2, fun j slot q hj hq => ?_⟩
      rw [k3 j slot q (by rw [h2]; exact hj)
        (by rw [List.getElem?_append_left (List.getElem?_eq_some_iff.1 hq).1]; exact hq)]
      simp [echo, h4]
    · rw [setHyper_short s hord _ (by rw [drawAll_length]; exact hl)]

/-- C24, exactly when every tunable parameter gets a draw from its own prior, whatever the random stream: when the
sampled priors begin with those of the tuned parameters. -/
theorem C24_exact (s : HyperState R P) (hord : s.hasOrd → 2 ≤ s.ord.n ∧ ∃ h, s.ord.getHyper = .ok h) :
    (∀ rng, ∃ s', s.randomizeHyper rng = .ok s' ∧ DrawnFromOwnPrior rng s s') ↔
      (layout s).map (priorOf s) <+: (drawnPriors s).map some := by
  constructor
  · intro h
    have hl : (layout s).length ≤ (drawnPriors s).length := by
      by_contra hc
      obtain ⟨s', h1, -⟩ := h fun _ _ _ => 0
      rw [(C24_positions s _ hord).2 (by omega)] at h1
      cases h1
    rw [List.prefix_iff_getElem?]
    intro j hj
    rw [List.length_map] at hj
    obtain ⟨q, hq⟩ : ∃ q, (drawnPriors s)[j]? = some q := ⟨_, List.getElem?_eq_getElem (by omega)⟩
    rw [List.getElem?_map, hq, List.getElem_map]
    simp only [Option.map_some, Option.some.injEq]
    set slot := (layout s)[j] with hs
    have hslot : (layout s)[j]? = some slot := List.getElem?_eq_getElem hj
    obtain ⟨s', h1, idx, -, h3⟩ := h fun i k θ => if i = j ∧ k = q.1 ∧ θ = q.2 then 1 else 0
    obtain ⟨s'', e1, -, e2⟩ := (C24_positions s (fun i k θ => if i = j ∧ k = q.1 ∧ θ = q.2 then 1 else 0) hord).1 hl
    rw [h1] at e1
    cases e1
    obtain ⟨q', hq', hr⟩ := h3 slot (List.mem_of_getElem? hslot)
    rw [e2 j slot q hslot hq] at hr
    have hne : slot ≠ .ordB := by
      intro hc
      rw [hc] at hq'
      simp [priorOf] at hq'
    simp only [echo, hne, if_false, and_self, if_true, Option.some.injEq] at hr
    rw [hq']
    congr 1
    by_contra hc
    rw [if_neg (fun hh => hc (Prod.ext hh.2.1 hh.2.2).symm)] at hr
    exact one_ne_zero hr
  · intro h rng
    have hl : (layout s).length ≤ (drawnPriors s).length := by simpa using h.length_le
    obtain ⟨s', h1, -, h3⟩ := (C24_positions s rng hord).1 hl
    refine ⟨s', h1, fun slot => (layout s).idxOf slot, fun a ha b hb hab => ?_, fun slot hs => ?_⟩
    · have e1 : (layout s)[(layout s).idxOf a]? = some a := List.getElem?_idxOf ha
      have e2 : (layout s)[(layout s).idxOf b]? = some b := List.getElem?_idxOf hb
      rw [show (layout s).idxOf a = (layout s).idxOf b from hab, e2] at e1
      exact (Option.some.inj e1).symm
    · have hj := List.idxOf_lt_length_of_mem hs
      have e1 : (layout s)[(layout s).idxOf slot]? = some slot := List.getElem?_idxOf hs
      have hp := (List.prefix_iff_getElem?.1 h) ((layout s).idxOf slot) (by simpa using hj)
      rw [List.getElem_map, List.getElem?_map, List.getElem_idxOf] at hp
      obtain ⟨q, hq⟩ : ∃ q, (drawnPriors s)[(layout s).idxOf slot]? = some q := ⟨_, List.getElem?_eq_getElem (by omega)⟩
      rw [hq] at hp
      simp only [Option.map_some, Option.some.injEq] at hp
      refine ⟨q, hp.symm, ?_⟩
      rw [h3 _ slot q e1 hq]
      have hne : slot ≠ .ordB := by
        intro hc
        rw [hc] at hp
        simp [priorOf] at hp
      simp [echo, hne]

omit [Field R] [LinearOrder R] [IsStrictOrderedRing R] in
theorem two_le_len (k : KExpr R P) : 2 ≤ k.len := by
  induction k with
  | leaf k => cases k <;> simp [KExpr.len, KLeaf.len]
  | dual op a b iha ihb => simp only [KExpr.len]; omega

/-- C24, the data for which that is so (preference noise and ratings tuned, the default): there are no ordinals, and
either nothing is tuned at all, or there are preferences and either kernels are not tuned or there are ratings too and
the kernel is neither a sum nor a product. -/
theorem C24_when (s : HyperState R P) (hp : s.pref.optimize = true) (ha : s.abs.optimize = true)
    (hord : s.hasOrd → 2 ≤ s.ord.n ∧ ∃ h, s.ord.getHyper = .ok h) :
    (∀ rng, ∃ s', s.randomizeHyper rng = .ok s' ∧ DrawnFromOwnPrior rng s s') ↔
      s.hasOrd = false ∧ ((s.hasPref = false ∧ s.hasAbs = false ∧ s.onlyProbit = true) ∨
        (s.hasPref = true ∧ (s.onlyProbit = true ∨ s.hasAbs = true ∧ ∃ k, s.kern = .leaf k))) := by
  rw [C24_exact s hord]
  have e25 : ¬ (25 : R) = 10⁻¹ := by norm_num
  have hlen := probit_num s (fun ho => (hord ho).2)
  rcases s with ⟨⟨ps, po⟩, o, ⟨as, v, ao, vo⟩, hp', ho', ha', k, only⟩
  simp only at hp ha
  subst hp ha
  cases k with
  | dual op a b =>
    cases only with
    | true => cases hp' <;> cases ho' <;> cases ha' <;> cases vo <;> simp [layout, drawnPriors, priorOf, e25]
    | false =>
      obtain ⟨h, -, hl⟩ := hlen
      constructor
      · intro hpre
        have h1 := hpre.length_le
        have h2 := two_le_len a
        have h3 := two_le_len b
        rw [List.length_map, hl] at h1
        simp only [KExpr.len, drawnPriors, Bool.false_eq_true, if_false, if_true] at h1
        cases vo <;> simp at h1 <;> omega
      · simp
  | leaf k => cases only <;> cases k <;> cases hp' <;> cases ho' <;> cases ha' <;> cases vo <;>
      simp [layout, drawnPriors, priorOf, leaves, arity, List.range_succ, e25]

/-- Ratings only: one parameter, the precision, is tuned; the first prior sampled is that of the preference noise. -/
example : layout (exampleState false false true true) = [.absV] ∧
    drawnPriors (exampleState false false true true) = [(2, 1 / 10), (2, 25)] := by decide +kernel

end

end Lop.Props
