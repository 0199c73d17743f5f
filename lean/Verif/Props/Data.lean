import Verif.Proofs.Data
import Mathlib.Data.Fin.VecNotation
import Mathlib.Data.Rat.Defs
import Mathlib.Algebra.Order.Ring.Rat

/-! # C16–C22: training-data bookkeeping -/

namespace Lop.Props

open Lop Lop.Spec

variable {d : Nat} {α : Type*} [LinearOrder α] {R : Type*} [Field R] [LinearOrder R]
  [IsStrictOrderedRing R]

/-- C16: after any history of documented `add` calls (all label kinds, interleaved with `reset`,
`predict`, `optimize`), the stored data decodes to exactly what the user stated since the last reset —
points, (winner, loser) facts, ordinal and absolute ratings (clamped), in order — plus, with Pareto
pairs on, the dominance facts of each batch; and every stored index is in range. -/
theorem C16_history_decodes (pareto : Bool) (hd : pareto = true → 0 < d) (ops : List (Op d α R))
    (hdoc : ∀ o ∈ ops, Documented o) :
    decode (run pareto {} ops) = ops.foldl (Facts.after pareto) {} ∧ InRange (run pareto {} ops) := by
  induction ops using List.reverseRecOn with
  | nil => exact ⟨rfl, by simp [run, InRange]⟩
  | append_singleton ops o ih =>
    obtain ⟨ih1, ih2⟩ := ih fun o ho => hdoc o (List.mem_append_left _ ho)
    have ho := hdoc o (by simp)
    have hrun : run pareto {} (ops ++ [o]) = (exec pareto (run pareto {} ops) o).1 := by
      simp [run]
    rw [hrun, List.foldl_append]
    simp only [List.foldl_cons, List.foldl_nil]
    rw [← ih1]
    cases o with
    | add X inp =>
      obtain ⟨_, h1, h2, _⟩ := modelAdd_facts pareto hd _ ih2 X inp ho
      exact ⟨h1, h2⟩
    | addPrior pts => exact ho.elim
    | reset => exact ⟨rfl, by simp [exec, modelReset, InRange]⟩
    | predict =>
      have : (exec pareto (run pareto {} ops) Op.predict).1.X = (run pareto {} ops).X ∧
          (exec pareto (run pareto {} ops) Op.predict).1.y = (run pareto {} ops).y := by
        unfold exec modelPredict modelOptimize
        simp only
        split
        · simp
        · split <;> simp_all
      constructor
      · simp only [decode, this.1, this.2, Facts.after]
      · simpa only [InRange, this.1, this.2] using ih2
    | optimize =>
      have : (exec pareto (run pareto {} ops) Op.optimize).1.X = (run pareto {} ops).X ∧
          (exec pareto (run pareto {} ops) Op.optimize).1.y = (run pareto {} ops).y := by
        unfold exec modelOptimize
        simp only
        split <;> simp_all
      constructor
      · simp only [decode, this.1, this.2, Facts.after]
      · simpa only [InRange, this.1, this.2] using ih2

/-- C16: on a state reached by documented use, a documented `add` is never rejected. -/
theorem C16_documented_add_accepted (pareto : Bool) (hd : pareto = true → 0 < d)
    (ops : List (Op d α R)) (hdoc : ∀ o ∈ ops, Documented o) (X : List (Fin d → α))
    (inp : AddInput R) (h : Documented (Op.add X inp)) :
    (modelAdd pareto (run pareto {} ops) X inp).2 = none :=
  (modelAdd_facts pareto hd _ (C16_history_decodes pareto hd ops hdoc).2 X inp h).1

/-- A concrete documented history with all label kinds. -/
def demoOps : List (Op 2 Int ℚ) :=
  [.add [![0, 0], ![1, 1]] (.pairs [⟨-1, 1, 0⟩]), .predict, .add [![2, 0]] (.absVec [1 / 2]),
   .add [![3, 3]] (.ordinalVec [2]), .add [![4, 0], ![0, 4]] (.pairs [⟨1, 0, 1⟩])]

example : ∀ o ∈ demoOps, Documented o := by
  intro o ho
  simp only [demoOps, List.mem_cons, List.not_mem_nil, or_false] at ho
  rcases ho with rfl | rfl | rfl | rfl | rfl <;> norm_num [Documented]
example : ((run true {} demoOps).y.rel.getD []).length = 6 := by decide +kernel

/-- C17 is violated: whenever an `add` with at least one point raises or is refused, the training
points have changed. -/
theorem C17_rejected_add_false (pareto : Bool) (st : ModelState d α R) (X : List (Fin d → α))
    (inp : AddInput R) (hX : X ≠ [])
    (hrej : (modelAdd pareto st X inp).2 ≠ none ∨ inp = .absOther) :
    (modelAdd pareto st X inp).1.X ≠ st.X := by
  have hne : some (st.X.getD [] ++ X) ≠ st.X := by
    cases h : st.X with
    | none => simp
    | some l => simpa using hX
  unfold modelAdd at *
  simp only at *
  split
  · exact hne
  · exact hne
  · exact hne

/-- C17, what remains true of a rejected `add`: the labels, the prior window and the decoded label
facts are unchanged, the old points are still the prefix of the stored points, and no stored index
goes out of range.  Missing for the full claim: the new points stay appended. -/
theorem C17_rejected_add_keeps_labels_partial (pareto : Bool) (st : ModelState d α R)
    (hr : InRange st) (X : List (Fin d → α)) (inp : AddInput R)
    (hrej : (modelAdd pareto st X inp).2 ≠ none ∨ inp = .absOther) :
    let st' := (modelAdd pareto st X inp).1
    st'.y = st.y ∧ st'.prior = st.prior ∧ st'.X = some (st.X.getD [] ++ X) ∧ InRange st' ∧
    (decode st').prefs = (decode st).prefs ∧ (decode st').ords = (decode st).ords ∧
    (decode st').rates = (decode st).rates := by
  have key : (modelAdd pareto st X inp).1.y = st.y ∧ (modelAdd pareto st X inp).1.prior = st.prior ∧
      (modelAdd pareto st X inp).1.X = some (st.X.getD [] ++ X) := by
    rcases hrej with h | rfl
    · unfold modelAdd at *
      simp only at *
      split
      · exact ⟨rfl, rfl, rfl⟩
      · exact ⟨rfl, rfl, rfl⟩
      · rename_i heq
        simp [heq] at h
    · exact ⟨rfl, rfl, rfl⟩
  obtain ⟨h1, h2, h3⟩ := key
  have o1 := decode_old_rel st hr X
  have o2 := decode_old_ord st hr X
  have o3 := decode_old_abs st hr X
  refine ⟨h1, h2, h3, ?_, ?_, ?_, ?_⟩
  · unfold InRange
    rw [h1, h3]
    simp only [Option.getD_some, List.length_append]
    refine ⟨fun p hp => ?_, fun r hp => ?_, fun r hp => ?_⟩
    · have := hr.1 p hp; omega
    · have := hr.2.1 r hp; omega
    · have := hr.2.2 r hp; omega
  · simp only [decode, h1, h3, Option.getD_some, o1]
  · simp only [decode, h1, h3, Option.getD_some, o2]
  · simp only [decode, h1, h3, Option.getD_some, o3]

example : (modelAdd false ({} : ModelState 1 Int ℚ) [![3]] (.ordinalVec [0])).2 ≠ none := by
  decide +kernel
example : (modelAdd false ({} : ModelState 1 Int ℚ) [![3]] (.absVec [3 / 2])).2 ≠ none := by
  decide +kernel

omit [IsStrictOrderedRing R] in
/-- C18: with Pareto pairs on, an accepted `add` appends to the user's pairs exactly the pairs
(-1, new point, any point) in which the new point is strictly better in every objective. -/
theorem C18_pareto_pairs_exact (hd : 0 < d) (st : ModelState d α R) (X : List (Fin d → α))
    (inp : AddInput R) (hok : (modelAdd true st X inp).2 = none) (hin : inp ≠ .absOther) :
    ∃ user auto, (modelAdd false st X inp).1.y.rel.getD [] = user ∧
      (modelAdd true st X inp).1.y.rel.getD [] = user ++ auto ∧
      ∀ p : Pair, p ∈ auto ↔ p.dk = -1 ∧ (st.X.getD []).length ≤ p.u ∧
        ∃ x z, (st.X.getD [] ++ X)[p.u]? = some x ∧ (st.X.getD [] ++ X)[p.v]? = some z ∧
          ∀ k, z k < x k := by
  have hok' : ∃ y, addLabels st.y (st.X.getD []).length inp = .ok (some y) := by
    unfold modelAdd at hok
    simp only at hok
    split at hok
    · simp at hok
    · rename_i heq
      exfalso
      cases inp with
      | absOther => exact hin rfl
      | pairs ps => simp only [addLabels, shift_if] at heq; split at heq <;> simp at heq
      | ordinalVec v => simp only [addLabels, addOrd] at heq; split at heq <;> simp at heq
      | ordinalMat v => simp only [addLabels, addOrd] at heq; split at heq <;> simp at heq
      | absVec v => simp only [addLabels, addAbs] at heq; split at heq <;> simp at heq
      | absTuple v => simp only [addLabels, addAbs] at heq; split at heq <;> simp at heq
      | otherType => simp [addLabels] at heq
    · rename_i y heq
      exact ⟨y, heq⟩
  obtain ⟨y, hy⟩ := hok'
  refine ⟨y.rel.getD [], paretoPairs (st.X.getD []).length X (st.X.getD [] ++ X), ?_, ?_, ?_⟩
  · unfold modelAdd
    simp only [hy]
    simp
  · have := (pareto_step true (fun _ => hd) (st.X.getD []) X y).1
    unfold modelAdd
    simp only [hy]
    simpa using this
  · intro p
    rw [mem_paretoPairs]
    constructor
    · rintro ⟨h1, i, x, z, hu, hx, hz, hk⟩
      refine ⟨h1, by omega, x, z, ?_, hz, hk⟩
      rw [List.getElem?_append_right (by omega), hu]
      simpa using hx
    · rintro ⟨h1, h2, x, z, hx, hz, hk⟩
      refine ⟨h1, p.u - (st.X.getD []).length, x, z, by omega, ?_, hz, hk⟩
      rwa [List.getElem?_append_right h2] at hx

omit [IsStrictOrderedRing R] in
/-- C18: the inserted pairs never relate a point to itself, and they are consistent with every
utility that increases when all objectives increase (hence jointly acyclic). -/
theorem C18_pareto_pairs_consistent (hd : 0 < d) (st : ModelState d α R) (X : List (Fin d → α))
    (p : Pair) (hp : p ∈ paretoPairs (st.X.getD []).length X (st.X.getD [] ++ X)) :
    p.u ≠ p.v ∧ winner p = p.u ∧
    ∀ {β : Type} [LinearOrder β] (U : (Fin d → α) → β),
      (∀ a b : Fin d → α, (∀ k, a k < b k) → U a < U b) →
      ∃ w l, (st.X.getD [] ++ X)[winner p]? = some w ∧ (st.X.getD [] ++ X)[loser p]? = some l ∧
        U l < U w := by
  rw [mem_paretoPairs] at hp
  obtain ⟨h1, i, x, z, hu, hx, hz, hk⟩ := hp
  have hxu : (st.X.getD [] ++ X)[p.u]? = some x := by
    rw [List.getElem?_append_right (by omega), hu]; simpa using hx
  refine ⟨?_, by simp [winner, h1], ?_⟩
  · intro heq
    rw [heq, hz] at hxu
    simp only [Option.some.injEq] at hxu
    subst hxu
    exact not_strictlyAbove_self hd _ hk
  · intro β _ U hU
    refine ⟨x, z, by simpa [winner, h1] using hxu, by simpa [loser, h1] using hz, hU _ _ hk⟩

example : paretoPairs 1 [![2, 2], ![0, 3]] [![1, 1], ![2, 2], ![0, 3]] = [⟨-1, 1, 0⟩] := by
  decide +kernel

/-- C19, violated: with an absolute rating on an otherwise unreferenced point, the rated point is
deleted and the rating silently moves to another point. -/
theorem C19_rating_moves_counterexample :
    ∃ st : ModelState 1 Int ℚ, InRange st ∧ (removeUnreferenced st).2 = none ∧
      (decode st).rates = [(some ![7], 1 / 2)] ∧
      (decode (removeUnreferenced st).1).rates = [(some ![1], 1 / 2)] :=
  ⟨{ X := some [![7], ![1], ![2]], y := { rel := some [⟨-1, 2, 1⟩], abs := some [(1 / 2, 0)] },
     prior := some (1, 3) }, by simp [InRange], by decide +kernel, by decide +kernel, by decide +kernel⟩

omit [IsStrictOrderedRing R] in
/-- C19 (error branches): without training points, without pairs and without a prior the call raises; in the last case the data has
been changed already. -/
theorem C19_refused (st : ModelState d α R) :
    (st.X = none → removeUnreferenced st = (st, some .attributeError)) ∧
    (∀ X, st.X = some X → st.y.rel = none → removeUnreferenced st = (st, some .typeError)) ∧
    (∀ X ps, st.X = some X → st.y.rel = some ps → (∃ p ∈ ps, X.length ≤ p.u ∨ X.length ≤ p.v) →
      removeUnreferenced st = (st, some .indexError)) ∧
    (∀ X ps, st.X = some X → st.y.rel = some ps → (∀ p ∈ ps, p.u < X.length ∧ p.v < X.length) → st.prior = none →
      (removeUnreferenced st).2 = some .typeError) := by
  refine ⟨fun h => ?_, fun X h h2 => ?_, fun X ps h h2 h3 => ?_, fun X ps h h2 h3 h4 => ?_⟩
  · simp [removeUnreferenced, h]
  · simp [removeUnreferenced, h, h2]
  · have : ps.any (fun p => decide (p.u ≥ X.length ∨ p.v ≥ X.length)) = true := by
      obtain ⟨p, hp, hx⟩ := h3
      exact List.any_eq_true.2 ⟨p, hp, by simpa using hx⟩
    simp only [removeUnreferenced, h, h2, this, if_true]
  · have : ps.any (fun p => decide (p.u ≥ X.length ∨ p.v ≥ X.length)) = false := by
      rw [List.any_eq_false]
      intro p hp
      have := h3 p hp
      simp only [decide_eq_true_eq, not_or]
      omega
    simp only [removeUnreferenced, h, h2, this, h4, Bool.false_eq_true, if_false]

omit [IsStrictOrderedRing R] in
/-- C19, what holds: on in-range data the points kept are exactly those mentioned by a pair, in their
order; all (winner, loser) facts keep their meaning and stay in range; when pairs are the only labels
this is the full claim.  Missing: ratings (see the counterexample and `C19_ratings_exact`). -/
theorem C19_pairs_keep_meaning_partial (st : ModelState d α R) (hr : InRange st)
    (X : List (Fin d → α)) (ps : List Pair) (hX : st.X = some X) (hps : st.y.rel = some ps) :
    let st' := (removeUnreferenced st).1
    st'.X = some (((List.range X.length).filter fun i => decide (∃ p ∈ ps, p.u = i ∨ p.v = i)).filterMap (X[·]?)) ∧
    (decode st').prefs = (decode st).prefs ∧
    (∀ p ∈ st'.y.rel.getD [], p.u < (st'.X.getD []).length ∧ p.v < (st'.X.getD []).length) ∧
    (st.y.ord = none → st.y.abs = none → InRange st' ∧
      (decode st').ords = [] ∧ (decode st').rates = []) ∧
    ((removeUnreferenced st).2 = none ↔ st.prior ≠ none) := by
  have hin : ∀ p ∈ ps, p.u < X.length ∧ p.v < X.length := by
    have := hr.1
    simpa [hX, hps] using this
  have hany : ¬ (ps.any (fun p => decide (p.u ≥ X.length ∨ p.v ≥ X.length))) = true := by
    simp only [List.any_eq_true, decide_eq_true_eq, not_exists, not_and]
    intro p hp
    have := hin p hp
    omega
  have hX' : (X.zipIdx.filter fun (q : (Fin d → α) × Nat) => referenced ps q.2).map (·.1) =
      keptPts (referenced ps) X := rfl
  have hform : (removeUnreferenced st).1.X = some (keptPts (referenced ps) X) ∧
      (removeUnreferenced st).1.y = { st.y with rel := some (ps.map fun p =>
        ⟨p.dk, p.u - removedUpTo ps p.u, p.v - removedUpTo ps p.v⟩) } ∧
      ((removeUnreferenced st).2 = none ↔ st.prior ≠ none) := by
    unfold removeUnreferenced
    simp only [hX, hps]
    rw [if_neg hany]
    cases hpr : st.prior with
    | none => simp only [hX']; simp
    | some ab => simp only [hX']; simp
  obtain ⟨f1, f2, f3⟩ := hform
  intro st'
  have f1 : st'.X = some (keptPts (referenced ps) X) := f1
  have f2 : st'.y = { st.y with rel := some (ps.map fun p =>
        ⟨p.dk, p.u - removedUpTo ps p.u, p.v - removedUpTo ps p.v⟩) } := f2
  have hrel : ∀ p ∈ st'.y.rel.getD [], p.u < (st'.X.getD []).length ∧ p.v < (st'.X.getD []).length := by
    rw [f1, f2]
    simp only [Option.getD_some, List.mem_map]
    rintro q ⟨p, hp, rfl⟩
    exact reindex_inRange X ps hin p hp
  refine ⟨?_, ?_, hrel, ?_, f3⟩
  · rw [f1]
    congr 1
    have hpred : (fun i => decide (∃ p ∈ ps, p.u = i ∨ p.v = i)) = referenced ps := by
      funext i; unfold referenced
      rw [Bool.eq_iff_iff]; simp
    rw [hpred]
    exact keptPts_eq_filterMap _ _
  · have := reindex_decode X ps hin
    simp only [decode, f1, f2, hX, hps, Option.getD_some]
    exact this
  · intro ho ha
    refine ⟨⟨hrel, ?_, ?_⟩, ?_, ?_⟩
    · rw [f2]; simp [ho]
    · rw [f2]; simp [ha]
    · simp [decode, f2, ho]
    · simp [decode, f2, ha]

example : ∃ st : ModelState 1 Int ℚ, InRange st ∧ st.prior ≠ none ∧ st.y.rel = some [⟨-1, 2, 1⟩] ∧
    st.X = some [![7], ![1], ![2]] :=
  ⟨{ X := some [![7], ![1], ![2]], y := { rel := some [⟨-1, 2, 1⟩] }, prior := some (1, 3) },
    by simp [InRange], by simp, rfl, rfl⟩

/-- C20, violated: with an unreferenced point stored before the prior points, `get_prior_pts`
loses a prior point. -/
theorem C20_prior_window_counterexample :
    ∃ (st : ModelState 2 Int ℚ) (pts : List (Fin 2 → Int)), InRange st ∧
      (addPrior true st pts).2 = none ∧ pts = [![1, 1], ![2, 2]] ∧
      (addPrior true st pts).1.X = some pts ∧
      getPriorPts (addPrior true st pts).1 = .ok (some [![2, 2]]) :=
  ⟨{ X := some [![0, 5]], y := { abs := some [(1 / 2, 0)] } }, [![1, 1], ![2, 2]],
    by simp [InRange], by decide +kernel, rfl, by decide +kernel, by decide +kernel⟩

/-- C20: `get_prior_pts` never raises, after any history of operations, accepted or not. -/
theorem C20_prior_never_raises (pareto : Bool) (ops : List (Op d α R)) :
    ∃ r, getPriorPts (run pareto {} ops) = .ok r := by
  have hrm : ∀ s : ModelState d α R, (s.X = none → s.prior = none) →
      ((removeUnreferenced s).1.X = none → (removeUnreferenced s).1.prior = none) := by
    intro s h
    unfold removeUnreferenced
    cases hX : s.X with
    | none => simpa [hX] using h hX
    | some X =>
      cases hy : s.y.rel with
      | none => simp [hX]
      | some ps =>
        simp only
        split_ifs with hr
        · simp [hX]
        · cases hp : s.prior <;> simp
  have hadd : ∀ (s : ModelState d α R) X inp, (modelAdd pareto s X inp).1.X ≠ none := by
    intro s X inp
    rw [(modelAdd_X_prior pareto s X inp).1]
    simp
  have hstep : ∀ (s : ModelState d α R) o, (s.X = none → s.prior = none) →
      ((exec pareto s o).1.X = none → (exec pareto s o).1.prior = none) := by
    intro s o h
    cases o with
    | add X inp => exact fun h' => absurd h' (hadd s X inp)
    | addPrior pts =>
      simp only [exec, addPrior]
      split_ifs with hpar
      · exact h
      · have hma : ∀ (s' : ModelState d α R), ∃ q, modelAdd pareto s' pts (.pairs []) = q ∧ q.1.X ≠ none :=
          fun s' => ⟨_, rfl, hadd _ _ _⟩
        obtain ⟨q, hma, hq⟩ := hma { s with
          prior := some ((s.X.getD []).length, (((s.X.getD []).length + pts.length : Nat) : Int)) }
        rw [hma]
        obtain ⟨q1, q2⟩ := q
        cases q2 with
        | some e => exact fun h' => absurd h' hq
        | none => exact hrm q1 fun h' => absurd h' hq
    | reset => intro _; rfl
    | predict =>
      simp only [exec, modelPredict]
      cases hX : s.X with
      | none => exact h
      | some X =>
        simp only
        split_ifs
        · simp [hX]
        · simp [modelOptimize, hX]
    | optimize =>
      simp only [exec, modelOptimize]
      cases hX : s.X with
      | none => exact h
      | some X => simp
  have hinv : ∀ (ops : List (Op d α R)) (s : ModelState d α R), (s.X = none → s.prior = none) →
      ((run pareto s ops).X = none → (run pareto s ops).prior = none) := by
    intro ops
    induction ops with
    | nil => exact fun _ h => h
    | cons o ops ih => exact fun s h => ih _ (hstep s o h)
  have := hinv ops {} fun _ => rfl
  unfold getPriorPts
  cases hp : (run pareto {} ops).prior with
  | none => exact ⟨_, rfl⟩
  | some ab =>
    cases hX : (run pareto {} ops).X with
    | none => rw [this hX] at hp; cases hp
    | some X => exact ⟨_, rfl⟩

/-- C20, what holds: if every point stored before is mentioned by a pair, then after `add_prior`,
`get_prior_pts` returns, in order, exactly the prior points that take part in a dominance relation
(they beat a stored point, or another prior point beats them), and later `add` calls — accepted or not —
do not change that.  Missing: earlier unreferenced points (see the counterexample and
`C20_prior_points_exact`). -/
theorem C20_prior_points_partial (hd : 0 < d) (st : ModelState d α R) (hr : InRange st)
    (href : ∀ i < (st.X.getD []).length, referenced (st.y.rel.getD []) i = true)
    (pts : List (Fin d → α)) (hok : (addPrior true st pts).2 = none)
    (later : List (List (Fin d → α) × AddInput R)) :
    getPriorPts (later.foldl (fun s a => (modelAdd true s a.1 a.2).1) (addPrior true st pts).1) =
      .ok (some (pts.filter fun x =>
        decide ((∃ z ∈ st.X.getD [] ++ pts, ∀ k, z k < x k) ∨ ∃ z ∈ pts, ∀ k, x k < z k))) := by
  set old := st.X.getD [] with hold
  set ps0 := st.y.rel.getD [] with hps0
  -- state after the inner `add`
  let st1 : ModelState d α R := { st with prior := some (old.length, ((old.length + pts.length : Nat) : Int)) }
  obtain ⟨hX2, hpr2⟩ := modelAdd_X_prior true st1 pts (.pairs [])
  have hlab : addLabels st1.y (st1.X.getD []).length (.pairs []) = .ok (some st1.y) := by
    simp [addLabels]
  have hadd : (modelAdd true st1 pts (.pairs [])).2 = none := by
    unfold modelAdd; simp only [hlab]
  have hrel : (modelAdd true st1 pts (.pairs [])).1.y.rel.getD [] =
      ps0 ++ paretoPairs old.length pts (old ++ pts) := by
    have := (pareto_step true (fun _ => hd) old pts st1.y).1
    unfold modelAdd
    simp only [hlab]
    simpa using this
  set st2 := (modelAdd true st1 pts (.pairs [])).1 with hst2
  have hX2 : st2.X = some (old ++ pts) := hX2
  have hpr2 : st2.prior = some (old.length, ((old.length + pts.length : Nat) : Int)) := hpr2
  have hap : addPrior true st pts = removeUnreferenced st2 := by
    unfold addPrior
    rw [if_neg (by simp)]
    simp only [← hold]
    show (match (modelAdd true st1 pts (.pairs [])).2 with
      | some e => ((modelAdd true st1 pts (.pairs [])).1, some e)
      | none => removeUnreferenced (modelAdd true st1 pts (.pairs [])).1) = _
    rw [hadd]
  rw [hap] at hok ⊢
  -- the pairs exist, otherwise `remove_without_reference` raises
  obtain ⟨ps, hps⟩ : ∃ ps, st2.y.rel = some ps := by
    cases h : st2.y.rel with
    | some ps => exact ⟨ps, rfl⟩
    | none => simp [removeUnreferenced, hX2, h] at hok
  have hpsv : ps = ps0 ++ paretoPairs old.length pts (old ++ pts) := by
    rw [← hrel, hps]; rfl
  have hin : ∀ p ∈ ps, p.u < (old ++ pts).length ∧ p.v < (old ++ pts).length := by
    intro p hp
    rw [hpsv, List.mem_append] at hp
    rcases hp with hp | hp
    · have := hr.1 p hp
      simp only [List.length_append, hold]; omega
    · exact paretoPairs_inRange _ _ p hp
  have hany : ¬ (ps.any (fun p => decide (p.u ≥ (old ++ pts).length ∨ p.v ≥ (old ++ pts).length))) = true := by
    simp only [List.any_eq_true, decide_eq_true_eq, not_exists, not_and]
    intro p hp
    have := hin p hp
    omega
  have hkeep : keptPts (referenced ps) (old ++ pts) =
      old ++ keptPts (fun i => referenced ps (i + old.length)) pts := by
    apply keptPts_append
    intro i hi
    have := href i hi
    unfold referenced at this ⊢
    rw [hpsv, List.any_append, this]
    rfl
  have hres : (removeUnreferenced st2).1.X = some (keptPts (referenced ps) (old ++ pts)) ∧
      (removeUnreferenced st2).1.prior = some (old.length,
        ((old.length + pts.length : Nat) : Int) -
          (((old ++ pts).length - (keptPts (referenced ps) (old ++ pts)).length : Nat) : Int)) := by
    unfold removeUnreferenced
    simp only [hX2, hps]
    rw [if_neg hany]
    simp only [hpr2]
    exact ⟨rfl, rfl⟩
  obtain ⟨hX3, hpr3⟩ := hres
  have hlen : (keptPts (referenced ps) (old ++ pts)).length ≤ (old ++ pts).length := by
    rw [keptPts_length]
    have := List.countP_le_length (p := referenced ps) (l := List.range (old ++ pts).length)
    simpa using this
  have hb : (((old.length + pts.length : Nat) : Int) -
          (((old ++ pts).length - (keptPts (referenced ps) (old ++ pts)).length : Nat) : Int)) =
      (((keptPts (referenced ps) (old ++ pts)).length : Nat) : Int) := by
    rw [Nat.cast_sub hlen]
    simp only [List.length_append]; ring
  rw [hb] at hpr3
  rw [getPriorPts_stable true later _ _ _ _ hX3 hpr3 le_rfl, List.take_length, hkeep,
    List.drop_left]
  congr 2
  apply keptPts_eq_filter
  intro i x hx
  rw [Bool.eq_iff_iff]
  have hi := (List.getElem?_eq_some_iff.mp hx).1
  simp only [referenced, List.any_eq_true, decide_eq_true_eq]
  rw [hpsv]
  constructor
  · rintro ⟨p, hp, hpu⟩
    rw [List.mem_append] at hp
    rcases hp with hp | hp
    · have := hr.1 p hp
      simp only [← hold] at this
      omega
    · rw [mem_paretoPairs] at hp
      obtain ⟨_, i', x', z, hu, hx', hz, hk⟩ := hp
      rcases hpu with h | h
      · left
        have : i' = i := by omega
        subst this
        rw [hx] at hx'
        cases hx'
        exact ⟨z, List.mem_of_getElem? hz, hk⟩
      · right
        rw [h, List.getElem?_append_right (by omega), Nat.add_sub_cancel, hx] at hz
        cases hz
        exact ⟨x', List.mem_of_getElem? hx', hk⟩
  · rintro (⟨z, hz, hk⟩ | ⟨z, hz, hk⟩)
    · obtain ⟨j, hj⟩ := List.mem_iff_getElem?.mp hz
      refine ⟨⟨-1, i + old.length, j⟩, List.mem_append_right _ ?_, Or.inl rfl⟩
      rw [mem_paretoPairs]
      exact ⟨rfl, i, x, z, rfl, hx, hj, hk⟩
    · obtain ⟨j, hj⟩ := List.mem_iff_getElem?.mp hz
      refine ⟨⟨-1, j + old.length, i + old.length⟩, List.mem_append_right _ ?_, Or.inr rfl⟩
      rw [mem_paretoPairs]
      refine ⟨rfl, j, z, x, rfl, hj, ?_, hk⟩
      simp only
      rw [List.getElem?_append_right (by omega), Nat.add_sub_cancel]
      exact hx

example : (addPrior true ({} : ModelState 2 Int ℚ) [![0, 0], ![5, 5], ![-1, 9]]).2 = none ∧
    getPriorPts (addPrior true ({} : ModelState 2 Int ℚ) [![0, 0], ![5, 5], ![-1, 9]]).1 =
      .ok (some [![0, 0], ![5, 5]]) := by decide +kernel

/-! ## C21, C22 -/

/-- The stored mode, if it counts as up to date and there is data, belongs to the stored data. -/
def FitOk (st : ModelState d α R) : Prop :=
  ∀ X, st.X = some X → st.optimized = true → st.fitted = some (X, st.y)

omit [IsStrictOrderedRing R] in
theorem predictsCurrent_iff (st : ModelState d α R) : PredictsCurrent st ↔ FitOk st := by
  unfold PredictsCurrent FitOk modelPredict modelOptimize
  cases hX : st.X with
  | none => simp
  | some X =>
    by_cases h : st.optimized = true
    · simp [h]
    · simp [h]

theorem addLabels_accepts (y : Labels R) (n : Nat) (X : List (Fin d → α)) (inp : AddInput R)
    (ho : Documented (Op.add X inp)) : ∃ y', addLabels y n inp = .ok (some y') := by
  cases inp with
  | pairs ps => simp only [addLabels, shift_if]; split <;> exact ⟨_, rfl⟩
  | ordinalVec v =>
    simp only [addLabels, addOrd]
    rw [if_neg]
    · exact ⟨_, rfl⟩
    · simp only [List.any_eq_true, List.mem_map, Prod.exists, decide_eq_true_eq, not_exists]
      rintro a i ⟨⟨b, j, hb, heq⟩, hle⟩
      rw [List.mem_zipIdx_iff_getElem?] at hb
      have := ho.2 b (List.mem_of_getElem? hb)
      simp only [Prod.mk.injEq] at heq
      omega
  | absVec v =>
    simp only [addLabels, addAbs]
    rw [if_neg]
    · exact ⟨_, rfl⟩
    · simp only [List.any_eq_true, List.mem_map, Prod.exists, decide_eq_true_eq]
      rintro (⟨a, i, ⟨b, j, hb, heq⟩, hle⟩ | ⟨a, i, ⟨b, j, hb, heq⟩, hle⟩)
      all_goals
        rw [List.mem_zipIdx_iff_getElem?] at hb
        have hb2 := ho.2 b (List.mem_of_getElem? hb)
        simp only [Prod.mk.injEq] at heq
        obtain ⟨rfl, _⟩ := heq
      · exact absurd hb2.1 (not_le.mpr hle)
      · exact absurd hb2.2 (not_le.mpr hle)
  | ordinalMat _ => exact ho.elim
  | absTuple _ => exact ho.elim
  | absOther => exact ho.elim
  | otherType => exact ho.elim

omit [IsStrictOrderedRing R] in
theorem removeUnreferenced_optimized (st : ModelState d α R) :
    (removeUnreferenced st).1.optimized = st.optimized := by
  unfold removeUnreferenced
  split
  · rfl
  · split
    · rfl
    · split
      · rfl
      · simp only
        split <;> rfl

theorem fitOk_step (pareto : Bool) (st : ModelState d α R)
    (hst : FitOk st) (o : Op d α R) (ho : DocumentedOrPrior o) : FitOk (exec pareto st o).1 := by
  have hadd : ∀ (s : ModelState d α R) X inp, Documented (Op.add X inp) →
      (modelAdd pareto s X inp).1.optimized = false ∧ (modelAdd pareto s X inp).2 = none := by
    intro s X inp h
    obtain ⟨y', hy⟩ := addLabels_accepts s.y (s.X.getD []).length X inp h
    unfold modelAdd
    simp only [hy]
    simp
  cases o with
  | add X inp =>
    intro Y _ hopt
    simp only [exec] at hopt
    rw [(hadd st X inp ho).1] at hopt
    simp at hopt
  | addPrior pts =>
    cases pareto with
    | false => simpa [exec, addPrior] using hst
    | true =>
      intro Y _ hopt
      simp only [exec, addPrior] at hopt
      rw [if_neg (by simp)] at hopt
      have h2 := hadd { st with prior := some ((st.X.getD []).length, (((st.X.getD []).length + pts.length : Nat) : Int)) }
        pts (.pairs []) (by simp [Documented])
      simp only [h2.2] at hopt
      rw [removeUnreferenced_optimized, h2.1] at hopt
      simp at hopt
  | reset => intro X hX; simp [exec, modelReset] at hX
  | predict =>
    simp only [exec, modelPredict]
    cases hX : st.X with
    | none => simpa using hst
    | some X =>
      simp only
      by_cases h : st.optimized = true
      · rw [if_pos h]; exact hst
      · rw [if_neg h]
        intro Y hY _
        simp only [modelOptimize, hX] at hY ⊢
        simp only [Option.some.injEq] at hY
        rw [hY]
  | optimize =>
    simp only [exec, modelOptimize]
    cases hX : st.X with
    | none => simpa using hst
    | some X =>
      intro Y hY _
      simp only [Option.some.injEq] at hY ⊢
      simp [← hY]

theorem fitOk_run (pareto : Bool) (st : ModelState d α R) (hst : FitOk st) (ops : List (Op d α R))
    (hdoc : ∀ o ∈ ops, DocumentedOrPrior o) : FitOk (run pareto st ops) := by
  induction ops generalizing st with
  | nil => exact hst
  | cons o ops ih =>
    exact ih _ (fitOk_step pareto st hst o (hdoc o (by simp))) fun o ho => hdoc o (by simp [ho])

/-- Same training points, labels and prior window. -/
def SameData (s t : ModelState d α R) : Prop := s.X = t.X ∧ s.y = t.y ∧ s.prior = t.prior

omit [IsStrictOrderedRing R] in
theorem sameData_modelAdd (pareto : Bool) (s t : ModelState d α R) (h : SameData s t)
    (X : List (Fin d → α)) (inp : AddInput R) :
    SameData (modelAdd pareto s X inp).1 (modelAdd pareto t X inp).1 ∧
      (modelAdd pareto s X inp).2 = (modelAdd pareto t X inp).2 := by
  obtain ⟨h1, h2, h3⟩ := h
  unfold modelAdd
  simp only [h1, h2]
  split
  · exact ⟨⟨rfl, rfl, h3⟩, rfl⟩
  · exact ⟨⟨rfl, rfl, h3⟩, rfl⟩
  · exact ⟨⟨rfl, rfl, h3⟩, rfl⟩

omit [IsStrictOrderedRing R] in
theorem sameData_remove (s t : ModelState d α R) (h : SameData s t) :
    SameData (removeUnreferenced s).1 (removeUnreferenced t).1 ∧
      (removeUnreferenced s).2 = (removeUnreferenced t).2 := by
  obtain ⟨h1, h2, h3⟩ := h
  unfold removeUnreferenced
  simp only [h1, h2, h3]
  split
  · exact ⟨⟨h1, h2, h3⟩, rfl⟩
  · split
    · exact ⟨⟨h1, h2, h3⟩, rfl⟩
    · split
      · exact ⟨⟨h1, h2, h3⟩, rfl⟩
      · split
        · exact ⟨⟨rfl, rfl, by simp_all⟩, rfl⟩
        · exact ⟨⟨rfl, rfl, rfl⟩, rfl⟩

omit [IsStrictOrderedRing R] in
theorem sameData_exec (pareto : Bool) (s t : ModelState d α R) (h : SameData s t) (o : Op d α R) :
    SameData (exec pareto s o).1 (exec pareto t o).1 ∧ (exec pareto s o).2 = (exec pareto t o).2 := by
  cases o with
  | add X inp => exact sameData_modelAdd pareto s t h X inp
  | addPrior pts =>
    obtain ⟨h1, h2, h3⟩ := h
    simp only [exec, addPrior]
    by_cases hp : pareto = false
    · rw [if_pos hp, if_pos hp]; exact ⟨⟨h1, h2, h3⟩, rfl⟩
    · rw [if_neg hp, if_neg hp]
      obtain ⟨a1, a2⟩ := sameData_modelAdd pareto
        { s with prior := some ((s.X.getD []).length, (((s.X.getD []).length + pts.length : Nat) : Int)) }
        { t with prior := some ((t.X.getD []).length, (((t.X.getD []).length + pts.length : Nat) : Int)) }
        ⟨h1, h2, by simp [h1]⟩ pts (.pairs [])
      rw [a2]
      generalize modelAdd pareto { s with prior := some ((s.X.getD []).length, (((s.X.getD []).length + pts.length : Nat) : Int)) } pts (.pairs []) = rs at *
      generalize modelAdd pareto { t with prior := some ((t.X.getD []).length, (((t.X.getD []).length + pts.length : Nat) : Int)) } pts (.pairs []) = rt at *
      cases h2 : rt.2 with
      | some e => exact ⟨a1, rfl⟩
      | none => exact sameData_remove _ _ a1
  | reset => exact ⟨⟨rfl, rfl, rfl⟩, rfl⟩
  | predict =>
    obtain ⟨h1, h2, h3⟩ := h
    refine ⟨?_, rfl⟩
    simp only [exec, modelPredict, modelOptimize]
    cases hX : s.X with
    | none =>
      rw [h1] at hX
      simp only [hX]
      exact ⟨by rw [h1], h2, h3⟩
    | some X =>
      have hX' := h1 ▸ hX
      simp only [hX']
      constructor
      · split <;> split <;> simp_all
      · constructor
        · split <;> split <;> simp_all
        · split <;> split <;> simp_all
  | optimize =>
    obtain ⟨h1, h2, h3⟩ := h
    simp only [exec, modelOptimize, h1, h2]
    split
    · exact ⟨⟨h1, h2, h3⟩, rfl⟩
    · exact ⟨⟨by simp_all, rfl, h3⟩, rfl⟩

omit [IsStrictOrderedRing R] in
/-- C21, data: after `reset`, every later sequence of operations (documented or not) produces the
same training points, labels and prior window, and the same exceptions, as on a fresh model. -/
theorem C21_reset_data (pareto : Bool) (st : ModelState d α R) (ops : List (Op d α R)) (o : Op d α R) :
    SameData (run pareto (modelReset st) ops) (run pareto {} ops) ∧
    (exec pareto (run pareto (modelReset st) ops) o).2 = (exec pareto (run pareto {} ops) o).2 := by
  have key : SameData (run pareto (modelReset st) ops) (run pareto {} ops) := by
    induction ops using List.reverseRecOn with
    | nil => exact ⟨rfl, rfl, rfl⟩
    | append_singleton ops o ih =>
      have := (sameData_exec pareto _ _ ih o).1
      simpa [run] using this
  exact ⟨key, (sameData_exec pareto _ _ key o).2⟩

/-- C21, predictions: after `reset` and any documented operations (including `add_prior`), predictions
come from the same fit as on a fresh model.  Missing for the full claim: refused `add` calls, see
`C21_reset_counterexample`. -/
theorem C21_reset_predictions_partial (pareto : Bool) (st : ModelState d α R)
    (ops : List (Op d α R)) (hdoc : ∀ o ∈ ops, DocumentedOrPrior o) :
    (modelPredict (run pareto (modelReset st) ops)).2 = (modelPredict (run pareto {} ops)).2 := by
  have h1 := (predictsCurrent_iff _).mpr
    (fitOk_run pareto (modelReset st) (by intro X hX; simp [modelReset] at hX) ops hdoc)
  have h2 := (predictsCurrent_iff _).mpr
    (fitOk_run pareto ({} : ModelState d α R) (by intro X hX; simp at hX) ops hdoc)
  obtain ⟨⟨e1, e2, _⟩, _⟩ := C21_reset_data pareto st ops Op.reset
  unfold PredictsCurrent at h1 h2
  rw [h1, h2, e1, e2]

/-- C21, violated: `reset` does not clear the `optimized` flag, so if the first `add` afterwards is the
refused kind (ratings as a plain list), the next prediction uses the mode from before the reset, while
a fresh model fits. -/
theorem C21_reset_counterexample :
    ∃ (st : ModelState 1 Int ℚ) (ops : List (Op 1 Int ℚ)),
      (∃ h, (∀ o ∈ h, Documented o) ∧ st = run false {} h) ∧
      ((modelPredict (run false (modelReset st) ops)).2.map fun f => f.map (·.1)) = some (some [![5]]) ∧
      ((modelPredict (run false {} ops)).2.map fun f => f.map (·.1)) = some (some [![9]]) := by
  refine ⟨run false {} [.add [![5]] (.absVec [1 / 2]), .predict], [.add [![9]] .absOther],
    ⟨_, ?_, rfl⟩, ?_, ?_⟩
  · intro o ho
    simp only [List.mem_cons, List.not_mem_nil, or_false] at ho
    rcases ho with rfl | rfl <;> norm_num [Documented]
  · decide +kernel
  · decide +kernel

/-- C22, what holds: after any interleaving of documented `add`, `add_prior`, `reset`, `predict` and
`optimize`, a prediction uses a mode fitted to exactly the data stored at that moment.  Missing for the
full claim: the operations of the counterexamples below. -/
theorem C22_predictions_current_partial (pareto : Bool) (ops : List (Op d α R))
    (hdoc : ∀ o ∈ ops, DocumentedOrPrior o) : PredictsCurrent (run pareto {} ops) :=
  (predictsCurrent_iff _).mpr (fitOk_run pareto _ (by intro X hX; simp at hX) ops hdoc)

/-- C22, violated by `AlignmentDecision`: for every model with data and preference labels, after
`determine_query_type` the model claims to be fitted, but the mode was computed without the
preferences. -/
theorem C22_query_type_decision_false (st : ModelState d α R) (X : List (Fin d → α))
    (hX : st.X = some X) (hrel : st.y.rel ≠ none) :
    ¬ PredictsCurrent (determineQueryType st) ∧
    (modelPredict (determineQueryType st)).2 = some (some (X, { st.y with rel := none })) := by
  have hpred : (modelPredict st).1.X = some X ∧ (modelPredict st).1.y = st.y := by
    unfold modelPredict modelOptimize
    simp only [hX]
    split <;> simp [hX]
  have hdet : (determineQueryType st).X = some X ∧ (determineQueryType st).optimized = true ∧
      (determineQueryType st).fitted = some (X, { st.y with rel := none }) ∧
      (determineQueryType st).y = st.y := by
    have hfit : ∀ s : ModelState d α R, s.X = some X →
        (modelPredict (modelOptimize s).1).1 =
          { s with fitted := some (X, s.y), optimized := true } := by
      intro s hs
      simp [modelOptimize, modelPredict, hs]
    unfold determineQueryType
    generalize (modelPredict st).1 = s at *
    obtain ⟨p1, p2⟩ := hpred
    simp only
    rw [hfit { s with y := { s.y with abs := none } } p1, hfit]
    · simp only [p1, p2]
      exact ⟨trivial, trivial, trivial, trivial⟩
    · exact p1
  obtain ⟨d1, d2, d3, d4⟩ := hdet
  constructor
  · rw [predictsCurrent_iff]
    intro h
    have := h X d1 d2
    rw [d3, d4] at this
    simp only [Option.some.injEq, Prod.mk.injEq, true_and] at this
    exact hrel (by rw [← this])
  · unfold modelPredict
    simp [d1, d2, d3]

/-- C22, violated: a rejected or refused `add`, a direct call of `remove_without_reference`, and an
aborted hyper-parameter search each leave a fitted model whose mode does not belong to the data. -/
theorem C22_stale_fit_counterexample :
    (∃ st : ModelState 1 Int ℚ, FitOk st ∧ ¬ PredictsCurrent (modelAdd false st [![9]] .absOther).1) ∧
    (∃ st : ModelState 1 Int ℚ, FitOk st ∧ ¬ PredictsCurrent (modelAdd false st [![9]] (.ordinalVec [0])).1) ∧
    (∃ st : ModelState 1 Int ℚ, FitOk st ∧ ¬ PredictsCurrent (removeUnreferenced st).1) ∧
    (∃ st : ModelState 1 Int ℚ, FitOk st ∧ st.y.rel = none ∧ st.y.abs = none ∧
      ¬ PredictsCurrent (modelOptimizeAborted st [0, 1]).1 ∧
      (modelOptimizeAborted st [0, 1]).2 = some .notImplemented) := by
  have hne : ∀ {s : ModelState 1 Int ℚ} {A B : List (Fin 1 → Int)} {y : Labels ℚ},
      s.X = some A → s.optimized = true → s.fitted = some (B, y) → A.length ≠ B.length →
      ¬ PredictsCurrent s := by
    intro s A B y h1 h2 h3 h4 h
    rw [predictsCurrent_iff] at h
    have := h A h1 h2
    rw [h3] at this
    simp only [Option.some.injEq, Prod.mk.injEq] at this
    exact h4 (by rw [this.1])
  let y : Labels ℚ := { rel := some [⟨-1, 0, 1⟩] }
  let st : ModelState 1 Int ℚ :=
    { X := some [![5], ![4], ![3]], y := y, optimized := true, fitted := some ([![5], ![4], ![3]], y) }
  have hst : FitOk st := by
    intro X hX _
    simp only [st, Option.some.injEq] at hX ⊢
    rw [← hX]
  let z : Labels ℚ := { ord := some [(1, 0), (2, 1), (3, 2), (2, 3)] }
  let so : ModelState 1 Int ℚ :=
    { X := some [![5], ![4], ![3], ![2]], y := z, optimized := true, fitted := some ([![5], ![4], ![3], ![2]], z) }
  have hso : FitOk so := by
    intro X hX _
    simp only [so, Option.some.injEq] at hX ⊢
    rw [← hX]
  exact ⟨⟨st, hst, hne rfl rfl rfl (by decide)⟩, ⟨st, hst, hne rfl rfl rfl (by decide)⟩,
    ⟨st, hst, hne rfl rfl rfl (by decide)⟩, ⟨so, hso, rfl, rfl, hne rfl rfl rfl (by decide), rfl⟩⟩

/-- C22: without training points `optimize`, with or without hyper-parameter search, raises
`AttributeError` and changes nothing. -/
theorem C22_optimize_without_data (st : ModelState d α R) (h : st.X = none) (idxs : List Nat) :
    modelOptimize st = (st, some .attributeError) ∧
      modelOptimizeAborted st idxs = (st, some .attributeError) := by
  simp [modelOptimize, modelOptimizeAborted, h]

example : ∃ st : ModelState 1 Int ℚ, ∃ X, st.X = some X ∧ st.y.rel ≠ none :=
  ⟨{ X := some [![1], ![2]], y := { rel := some [⟨-1, 0, 1⟩] } }, _, rfl, by simp⟩

end Lop.Props
