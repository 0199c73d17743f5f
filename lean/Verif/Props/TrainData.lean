import Verif.Proofs.TrainData
import Verif.Props.PrefProbit

/-! # C102: what a training run stores -/

namespace Lop.Props

open Lop Lop.Spec

variable {d : Nat}

/-- The perfect user of the code is a perfect user. -/
theorem perfectIn_of {f : (Fin d → ℝ) → ℝ} {i : DataIn d} (hc : i.choose = perfectChoose f)
    (hr : i.rate = fun x => .ok (perfectRate f x)) : PerfectIn f i where
  choose := by
    intro q b hb
    rw [hc] at hb
    exact npArgmax_firstBest hb
  rate := by
    intro x
    rw [hr]
    simp only [perfectRate, sigmoid, add_zero, neg_mul]

/-- C102: whoever the user is, whatever is selected, reduced and evaluated, and whether or not the run is left by an exception:
a training run stores nothing but what was said. Stored indices are in range, every stored preference was chosen by the user in a
query of the run or is a dominance between points (with Pareto pairs on), and every stored rating is one the user gave in the
run, or the one given before it, kept within [0.001, 0.999]. -/
theorem C102_said {pareto : Bool} (hd : pareto = true → 0 < d) (selType : String) (perfect linear : Bool)
    (s : StartData d) (eval0 : Except PyErr Unit) (steps : List (DataIn d))
    (hi : ∀ i ∈ steps, ∀ q b, i.choose q = .ok b → b < q.length) :
    InRange (dataRun selType perfect pareto linear s eval0 steps).1 ∧
    (∀ p ∈ (decode (dataRun selType perfect pareto linear s eval0 steps).1).prefs, ∃ w l, p = (some w, some l) ∧
      (Said steps w l ∨ (pareto = true ∧ ∀ k, l k < w k))) ∧
    ∀ r ∈ (decode (dataRun selType perfect pareto linear s eval0 steps).1).rates, ∃ x v,
      r = (some x, max (1 / 1000) (min (999 / 1000) v)) ∧ 0 ≤ v ∧ v ≤ 1 ∧ (s.absPoint = some (x, v) ∨ Rated steps x v) :=
  have h := runInv_run (T := fun w l => Said steps w l ∨ (pareto = true ∧ ∀ k, l k < w k))
    (Q := fun x v => s.absPoint = some (x, v) ∨ Rated steps x v) hd (fun hp x z hz => .inr ⟨hp, hz⟩) selType perfect linear s
    (fun x v h => .inl h) eval0 steps hi (fun i hm q b hs hb w l hw hl => .inl ⟨i, hm, q, b, hs, hb, hw, hl⟩)
    (fun i hm x v ho hr => .inr ⟨i, hm, ho, hr⟩)
  ⟨h.range, h.truth, h.rated⟩

theorem perfectIn_range {f : (Fin d → ℝ) → ℝ} {i : DataIn d} (h : PerfectIn f i) (q : List (Fin d → ℝ)) (b : Nat)
    (hb : i.choose q = .ok b) : b < q.length := by
  obtain ⟨m, h1, _⟩ := h.choose q b hb
  simpa using (List.getElem?_eq_some_iff.1 h1).1

/-- C102 (a perfect user): everything a training run with a perfect user has stored is true: every stored preference (chosen, or
added because of Pareto dominance when the utility respects dominance) has a winner of at least the utility of the loser, and
every stored rating is the user's rating of that point or the one given before the run. -/
theorem C102_true {f : (Fin d → ℝ) → ℝ} {pareto : Bool} (hd : pareto = true → 0 < d)
    (hmono : pareto = true → ∀ x z : Fin d → ℝ, (∀ k, z k < x k) → f z ≤ f x) (selType : String) (perfect linear : Bool)
    (s : StartData d) (eval0 : Except PyErr Unit) (steps : List (DataIn d)) (hu : ∀ i ∈ steps, PerfectIn f i) :
    Truthful f (decode (dataRun selType perfect pareto linear s eval0 steps).1) ∧
    RatedByUtility f s.absPoint (decode (dataRun selType perfect pareto linear s eval0 steps).1) := by
  obtain ⟨_, h2, h3⟩ := C102_said hd selType perfect linear s eval0 steps fun i hi => perfectIn_range (hu i hi)
  refine ⟨fun p hp => ?_, fun r hr => ?_⟩
  · obtain ⟨w, l, rfl, ⟨i, hi, q, b, _, hb, hw, hl⟩ | ⟨hp, hk⟩⟩ := h2 p hp
    · refine ⟨w, l, rfl, ?_⟩
      obtain ⟨m, h4, h5, _⟩ := (hu i hi).choose q b hb
      rw [List.getElem?_map, hw] at h4
      simp only [Option.map_some, Option.some.injEq] at h4
      subst h4
      obtain ⟨n, hn, rfl⟩ := List.mem_iff_getElem.1 (List.mem_of_mem_eraseIdx hl)
      exact h5 n _ (by rw [List.getElem?_map, List.getElem?_eq_getElem hn]; rfl)
    · exact ⟨w, l, rfl, hmono hp w l hk⟩
  · obtain ⟨x, v, rfl, _, _, h4 | ⟨i, hi, _, h4⟩⟩ := h3 r hr
    · exact .inr ⟨x, v, h4, rfl⟩
    · rw [(hu i hi).rate x] at h4
      injection h4 with h4
      exact .inl ⟨x, by rw [h4]⟩

/-- C102 (no contradiction): two points that are stated to be better than each other, directly or through others, have equal
utility; no point of larger utility is ever stated to be worse. -/
theorem C102_consistent {f : (Fin d → ℝ) → ℝ} {pareto : Bool} (hd : pareto = true → 0 < d)
    (hmono : pareto = true → ∀ x z : Fin d → ℝ, (∀ k, z k < x k) → f z ≤ f x) (selType : String) (perfect linear : Bool)
    (s : StartData d) (eval0 : Except PyErr Unit) (steps : List (DataIn d)) (hu : ∀ i ∈ steps, PerfectIn f i)
    (a b : Fin d → ℝ) (h : StatedBetter (decode (dataRun selType perfect pareto linear s eval0 steps).1) a b) :
    f b ≤ f a := by
  have ht := (C102_true hd hmono selType perfect linear s eval0 steps hu).1
  induction h with
  | single h =>
    obtain ⟨w, l, he, hf⟩ := ht _ h
    simp only [Prod.mk.injEq, Option.some.injEq] at he
    obtain ⟨rfl, rfl⟩ := he
    exact hf
  | tail _ h ih =>
    obtain ⟨w, l, he, hf⟩ := ht _ h
    simp only [Prod.mk.injEq, Option.some.injEq] at he
    obtain ⟨rfl, rfl⟩ := he
    exact hf.trans ih

/-- C102 (likelihood): at the true utilities every stored pair is at least as likely as not, for every noise level. -/
theorem C102_likely {f : (Fin d → ℝ) → ℝ} {pareto : Bool} (hd : pareto = true → 0 < d)
    (hmono : pareto = true → ∀ x z : Fin d → ℝ, (∀ k, z k < x k) → f z ≤ f x) (selType : String) (perfect linear : Bool)
    (s : StartData d) (eval0 : Except PyErr Unit) (steps : List (DataIn d)) (hu : ∀ i ∈ steps, PerfectIn f i)
    (sigma : ℝ) (hs : 0 < sigma) (X : List (Fin d → ℝ)) (ps : List Pair)
    (hX : (dataRun selType perfect pareto linear s eval0 steps).1.X = some X)
    (hps : (dataRun selType perfect pareto linear s eval0 steps).1.y.rel = some ps) :
    ∀ p ∈ ps, ∃ (hu : p.u < X.length) (hv : p.v < X.length), ∃ l, prefLikelihood sigma
      [⟨p.dk, ⟨p.u, hu⟩, ⟨p.v, hv⟩⟩] (fun i : Fin X.length => f X[i]) = [l] ∧ 1 / 2 ≤ l := by
  have h := runInv_run (T := fun _ _ => True) (Q := fun _ _ => True) hd (fun _ _ _ _ => trivial) selType perfect linear s
    (fun _ _ _ => trivial) eval0 steps (fun i hi => perfectIn_range (hu i hi)) (fun _ _ _ _ _ _ _ _ _ _ => trivial)
    (fun _ _ _ _ _ _ => trivial)
  have htruth := (C102_true hd hmono selType perfect linear s eval0 steps hu).1
  intro p hp
  obtain ⟨h1, h2⟩ := h.range.1 p (by rw [hps]; exact hp)
  rw [hX, Option.getD_some] at h1 h2
  have hdk := h.first p (by rw [hps]; exact hp)
  have hf : f X[p.v] ≤ f X[p.u] := by
    obtain ⟨w, l, he, hf⟩ := htruth ((X[winner p]?, X[loser p]?)) (by
      simp only [decode, hX, hps, Option.getD_some]
      exact List.mem_map.2 ⟨p, hp, rfl⟩)
    simp only [winner, loser, hdk, if_true, List.getElem?_eq_getElem h1, List.getElem?_eq_getElem h2, Prod.mk.injEq,
      Option.some.injEq] at he
    rw [he.1, he.2]; exact hf
  obtain ⟨l, h3, h4, _⟩ := C01_recorded_pair_likely sigma hs (fun i : Fin X.length => f X[i]) ⟨p.u, h1⟩ ⟨p.v, h2⟩
  have hdk' : getDkScalar (f X[p.u]) (f X[p.v]) = -1 := by
    unfold getDkScalar
    split_ifs with h5 h6
    · rfl
    · exact absurd h6 (not_lt.2 hf)
    · rfl
  simp only [Fin.getElem_fin, hdk'] at h3
  exact ⟨h1, h2, l, by rw [hdk]; exact h3, h4⟩

/-- C102 (`ranking`): a run that ranks its queries never completes a pass, and stores nothing beyond what was there before. -/
theorem C102_ranking_false (perfect pareto linear : Bool) (s : StartData d) (eval0 : Except PyErr Unit)
    (steps : List (DataIn d)) (hs : steps ≠ []) :
    (∃ e, (dataRun "ranking" perfect pareto linear s eval0 steps).2 = .error e) ∧
    (dataRun "ranking" perfect pareto linear s eval0 steps).1 = (startRun pareto linear s {}).1 := by
  obtain ⟨i, rest, rfl⟩ := List.exists_cons_of_ne_nil hs
  have hstep : ∀ st : ModelState d ℝ ℝ, ∃ e, dataStep "ranking" perfect pareto i st = (st, .error e) := by
    intro st
    unfold dataStep dataRanking
    split
    · exact ⟨_, rfl⟩
    · split
      · exact ⟨_, rfl⟩
      · rw [if_neg (by decide), if_pos rfl]
        split
        · exact ⟨_, rfl⟩
        · split
          · exact ⟨_, rfl⟩
          · split <;> exact ⟨_, rfl⟩
  unfold dataRun
  generalize startRun pareto linear s {} = r
  obtain ⟨st, e⟩ := r
  cases e with
  | some e => exact ⟨⟨e, rfl⟩, rfl⟩
  | none =>
    cases eval0 with
    | error e => exact ⟨⟨e, rfl⟩, rfl⟩
    | ok _ =>
      obtain ⟨e, he⟩ := hstep st
      simp only [dataLoop, he]
      exact ⟨⟨e, rfl⟩, trivial⟩

/-- C102 (one candidate): a planning problem with fewer than two candidates ends the run, whatever the selection type, although
a rating needs only one. -/
theorem C102_single_candidate_false (selType : String) (perfect pareto : Bool) (i : DataIn d) (h : i.paths.length < 2)
    (st : ModelState d ℝ ℝ) : dataStep selType perfect pareto i st = (st, .error .indexError) := by
  rw [dataStep, if_pos h]

/-- C102 (what a `choose1` pass stores): the shown candidates, then the others if Pareto pairs are on, and exactly these
preferences: the chosen candidate over each other one shown, and the new points over all points they dominate. -/
theorem C102_step {perfect pareto : Bool} (hd : pareto = true → 0 < d) {i : DataIn d}
    (hi : ∀ q b, i.choose q = .ok b → b < q.length) {st st' : ModelState d ℝ ℝ} {r : Int × Int} (hst : InRange st)
    (h : dataStep "choose1" perfect pareto i st = (st', .ok r)) :
    InRange st' ∧ ∃ q hid b, Shown i q ∧ i.choose q = .ok b ∧ (pareto = true → NotShown i hid) ∧ (pareto = false → hid = []) ∧
      (decode st').points = (decode st).points ++ q ++ hid ∧
      (decode st').prefs = (decode st).prefs ++ chosenOver q b ++
        (if pareto then autoPrefs q ((decode st).points ++ q) ++ autoPrefs hid ((decode st).points ++ q ++ hid) else []) ∧
      (decode st').ords = (decode st).ords ∧ (decode st').rates = (decode st).rates := by
  unfold dataStep at h
  split at h
  · cases h
  · split at h
    · cases h
    · next rows hrows =>
      rw [if_pos rfl] at h
      unfold dataChoose at h
      split at h
      · cases h
      · next sel hidden hsel =>
        split at h
        · cases h
        · next q hq =>
          split at h
          · cases h
          · next pairs hp =>
            obtain ⟨b, hb, rfl⟩ := choosePairs_ok hp
            have hbl := hi q b hb
            have hdoc : ∀ p ∈ genPairsFromIdx b (List.range q.length), p.u < q.length ∧ p.v < q.length := by
              intro p hp
              obtain ⟨h3, _, h5⟩ := C02_gen_pairs_irrefl b _ p hp
              have hdk := genPairs_dk b _ p hp
              simp only [winner, loser, hdk, if_true, List.mem_range] at h3 h5
              exact ⟨h3 ▸ hbl, h5⟩
            obtain ⟨a1, a2, a3, _⟩ := modelAdd_facts pareto hd st hst q (.pairs _) hdoc
            unfold thenAdd at h
            beta_reduce at h
            have hshown : Shown i q := ⟨rows, sel, hidden, hrows, hsel, (takeRows_spec hq).symm⟩
            split at h
            · cases h
            · next st1 he =>
              rw [he] at a2 a3
              simp only at a2 a3
              have e1 : (decode st1).points = (decode st).points ++ q := by rw [a2]; rfl
              have e2 : (decode st1).prefs = (decode st).prefs ++ chosenOver q b ++
                  (if pareto then autoPrefs q ((decode st).points ++ q) else []) := by
                rw [a2]
                simp only [Facts.after]
                rw [genPairs_points]
                rfl
              have e3 : (decode st1).ords = (decode st).ords := by rw [a2]; rfl
              have e4 : (decode st1).rates = (decode st).rates := by rw [a2]; rfl
              unfold addHiddenPaths at h
              split at h
              · next hph =>
                split at h
                · cases h
                · next hid hhid =>
                  obtain ⟨c1, c2, c3, _⟩ := modelAdd_facts pareto hd st1 a3 hid (.pairs []) (by simp [Documented])
                  unfold thenAdd at h
                  beta_reduce at h
                  split at h
                  · cases h
                  · next st2 he2 =>
                    rw [he2] at c2 c3
                    simp only at c2 c3
                    simp only [Prod.mk.injEq] at h
                    obtain ⟨rfl, _⟩ := h
                    refine ⟨c3, q, hid, b, hshown, hb, fun _ => ⟨rows, sel, hidden, hrows, hsel, (takeRows_spec hhid).symm⟩,
                      fun hc => by simp [hc] at hph, ?_, ?_, ?_, ?_⟩
                    · rw [c2, ← e1]; rfl
                    · rw [c2]
                      simp only [Facts.after, List.map_nil, List.append_nil, e1, e2, hph.1, if_true, List.append_assoc]
                    · rw [c2, ← e3]; rfl
                    · rw [c2, ← e4]; rfl
              · next hph =>
                simp only [Prod.mk.injEq] at h
                obtain ⟨rfl, _⟩ := h
                refine ⟨a3, q, [], b, hshown, hb, fun hp => ?_, fun _ => rfl, by rw [e1, List.append_nil], ?_, e3, e4⟩
                · have : hidden = [] := by
                    have : ¬ hidden.length > 0 := fun hh => hph ⟨hp, hh⟩
                    exact List.length_eq_zero_iff.1 (by omega)
                  exact ⟨rows, sel, hidden, hrows, hsel, by rw [this]; rfl⟩
                · rw [e2]
                  cases pareto <;> simp [autoPrefs]

/-- C102 (what a `choose1` run stores): without Pareto pairs and given data, a completed run has stored exactly the candidates
shown, in order, and the chosen one over each other one, query by query. -/
theorem C102_stored {perfect linear : Bool} {steps : List (DataIn d)}
    (hi : ∀ i ∈ steps, ∀ q b, i.choose q = .ok b → b < q.length) {qs : List (Int × Int)} {eval0 : Except PyErr Unit}
    (h : (dataRun "choose1" perfect false linear {} eval0 steps).2 = .ok qs) :
    ∃ shown : List (List (Fin d → ℝ)), ∃ chosen : List Nat, shown.length = steps.length ∧ chosen.length = steps.length ∧
      (∀ (j : Nat) i q b, steps[j]? = some i → shown[j]? = some q → chosen[j]? = some b → Shown i q ∧ i.choose q = .ok b) ∧
      decode (dataRun "choose1" perfect false linear {} eval0 steps).1 =
        { points := shown.flatten, prefs := (List.zipWith chosenOver shown chosen).flatten } := by
  have key : ∀ (steps : List (DataIn d)) (st st' : ModelState d ℝ ℝ) (qs : List (Int × Int)),
      (∀ i ∈ steps, ∀ q b, i.choose q = .ok b → b < q.length) → InRange st →
      dataLoop "choose1" perfect false steps st = (st', .ok qs) →
      ∃ shown : List (List (Fin d → ℝ)), ∃ chosen : List Nat, shown.length = steps.length ∧ chosen.length = steps.length ∧
      (∀ (j : Nat) i q b, steps[j]? = some i → shown[j]? = some q → chosen[j]? = some b → Shown i q ∧ i.choose q = .ok b) ∧
      decode st' = { points := (decode st).points ++ shown.flatten,
                     prefs := (decode st).prefs ++ (List.zipWith chosenOver shown chosen).flatten,
                     ords := (decode st).ords, rates := (decode st).rates } := by
    intro steps
    induction steps with
    | nil =>
      intro st st' qs _ _ h
      simp only [dataLoop, Prod.mk.injEq] at h
      obtain ⟨rfl, _⟩ := h
      exact ⟨[], [], rfl, rfl, by simp, by simp⟩
    | cons i rest ih =>
      intro st st' qs hi hst h
      unfold dataLoop at h
      split at h
      · cases h
      · next st1 r he =>
        split at h
        · cases h
        · split at h
          · cases h
          · next st2 qs' he2 =>
            simp only [Prod.mk.injEq] at h
            obtain ⟨rfl, _⟩ := h
            obtain ⟨hr1, q, hid, b, h1, h2, _, h3, h4, h5, h6, h7⟩ := C102_step (by simp) (hi i (by simp)) hst he
            have h3 := h3 rfl
            subst h3
            obtain ⟨shown, chosen, s1, s2, s3, s4⟩ := ih st1 st2 qs' (fun j hj => hi j (by simp [hj])) hr1 he2
            refine ⟨q :: shown, b :: chosen, by simp [s1], by simp [s2], ?_, ?_⟩
            · intro j i' q' b' e1 e2 e3
              cases j with
              | zero =>
                simp only [List.getElem?_cons_zero, Option.some.injEq] at e1 e2 e3
                subst e1 e2 e3
                exact ⟨h1, h2⟩
              | succ j =>
                simp only [List.getElem?_cons_succ] at e1 e2 e3
                exact s3 j i' q' b' e1 e2 e3
            · rw [s4, h4, h5, h6, h7]
              simp
  have hstart : startRun (d := d) false linear {} {} = ({}, none) := rfl
  unfold dataRun at h ⊢
  rw [hstart] at h ⊢
  simp only at h ⊢
  cases eval0 with
  | error e => simp at h
  | ok u =>
    simp only at h ⊢
    generalize hr : dataLoop "choose1" perfect false steps ({} : ModelState d ℝ ℝ) = r at h ⊢
    obtain ⟨st', res⟩ := r
    simp only at h
    subst h
    obtain ⟨shown, chosen, s1, s2, s3, s4⟩ := key steps {} st' qs hi (by simp [InRange]) hr
    exact ⟨shown, chosen, s1, s2, s3, by simpa [decode] using s4⟩

/-- C102 (what a `rating` pass stores): the first selected candidate and its rating, kept within [0.001, 0.999]. -/
theorem C102_rating_step {perfect pareto : Bool} (hd : pareto = true → 0 < d) {i : DataIn d}
    (hi : ∀ x r, i.rate x = .ok r → 0 ≤ r ∧ r ≤ 1) {st st' : ModelState d ℝ ℝ} {a : Int × Int} (hst : InRange st)
    (h : dataStep "rating" perfect pareto i st = (st', .ok a)) :
    InRange st' ∧ ∃ rows s rest hidden x r, i.rewards = .ok rows ∧ i.select = .ok (s :: rest, hidden) ∧ rows[s]? = some x ∧
      i.rate x = .ok r ∧ a = (absQuery, -1) ∧ (decode st').points = (decode st).points ++ [x] ∧
      (decode st').rates = (decode st).rates ++ [(some x, max (1 / 1000) (min (999 / 1000) r))] ∧
      (decode st').prefs = (decode st).prefs ++ (if pareto then autoPrefs [x] ((decode st).points ++ [x]) else []) ∧
      (decode st').ords = (decode st).ords := by
  unfold dataStep at h
  split at h
  · cases h
  · split at h
    · cases h
    · next rows hrows =>
      rw [if_neg (by decide), if_neg (by decide), if_pos rfl] at h
      unfold dataRating at h
      split at h
      · cases h
      · next sel hidden hsel =>
        split at h
        · cases h
        · next s rest =>
          split at h
          · cases h
          · next x hx =>
            split at h
            · cases h
            · next r hr =>
              obtain ⟨a1, a2, a3, _⟩ := modelAdd_facts pareto hd st hst [x] (.absVec [r]) ⟨rfl, by simpa using hi x r hr⟩
              unfold thenAdd at h
              beta_reduce at h
              split at h
              · cases h
              · next st1 he =>
                rw [he] at a2 a3
                simp only [Prod.mk.injEq, Except.ok.injEq] at h
                obtain ⟨rfl, rfl⟩ := h
                simp only at a2 a3
                refine ⟨a3, rows, s, rest, hidden, x, r, hrows, hsel, hx, hr, rfl, ?_, ?_, ?_, ?_⟩ <;> rw [a2] <;>
                  simp [Facts.after]

/-- C102 (what a `switch` pass stores): one selected candidate is rated, several are compared; nothing else is added, except the
Pareto pairs. -/
theorem C102_switch_step {perfect pareto : Bool} (hd : pareto = true → 0 < d) {i : DataIn d}
    (hc : ∀ q b, i.choose q = .ok b → b < q.length)
    (hi : ∀ x r, i.rate x = .ok r → 0 ≤ r ∧ r ≤ 1) {st st' : ModelState d ℝ ℝ} {a : Int × Int} (hst : InRange st)
    (h : dataStep "switch" perfect pareto i st = (st', .ok a)) :
    InRange st' ∧ ∃ q, Shown i q ∧ (decode st').points = (decode st).points ++ q ∧ (decode st').ords = (decode st).ords ∧
      ((∃ x r, q = [x] ∧ i.rate x = .ok r ∧ a = (absQuery, -1) ∧
        (decode st').rates = (decode st).rates ++ [(some x, max (1 / 1000) (min (999 / 1000) r))] ∧
        (decode st').prefs = (decode st).prefs ++ (if pareto then autoPrefs q ((decode st).points ++ q) else [])) ∨
      (∃ b c, q.length ≠ 1 ∧ i.choose q = .ok b ∧ FirstBest (q.map i.util) c ∧
        a = (pairQuery, if b = c then 1 else 0) ∧ (decode st').rates = (decode st).rates ∧
        (decode st').prefs = (decode st).prefs ++ chosenOver q b ++
          (if pareto then autoPrefs q ((decode st).points ++ q) else []))) := by
  unfold dataStep at h
  split at h
  · cases h
  · split at h
    · cases h
    · next rows hrows =>
      rw [if_neg (by decide), if_neg (by decide), if_neg (by decide), if_pos rfl] at h
      unfold dataSwitch at h
      split at h
      · cases h
      · next sel hidden hsel =>
        split at h
        · cases h
        · next q hq =>
          have hshown : Shown i q := ⟨rows, sel, hidden, hrows, hsel, (takeRows_spec hq).symm⟩
          have hql : q.length = sel.length := by simpa using (congrArg List.length (takeRows_spec hq)).symm
          split at h
          · next hone =>
            split at h
            · cases h
            · next rs hrs =>
              rw [hone] at hql
              obtain ⟨x, rfl⟩ := List.length_eq_one_iff.1 hql
              obtain ⟨r, rfl, hr⟩ : ∃ r, rs = [r] ∧ i.rate x = .ok r := by
                unfold rateAll at hrs
                split at hrs
                · cases hrs
                · next r hr =>
                  simp only [rateAll, Except.ok.injEq] at hrs
                  exact ⟨r, hrs.symm, hr⟩
              obtain ⟨a1, a2, a3, _⟩ := modelAdd_facts pareto hd st hst [x] (.absVec [r]) ⟨rfl, by simpa using hi x r hr⟩
              unfold thenAdd at h
              beta_reduce at h
              split at h
              · cases h
              · next st1 he =>
                rw [he] at a2 a3
                simp only [Prod.mk.injEq, Except.ok.injEq] at h
                obtain ⟨rfl, rfl⟩ := h
                simp only at a2 a3
                refine ⟨a3, [x], hshown, ?_, ?_, .inl ⟨x, r, rfl, hr, rfl, ?_, ?_⟩⟩ <;> rw [a2] <;> simp [Facts.after]
          · next hone =>
            split at h
            · cases h
            · next c hcor =>
              split at h
              · cases h
              · next pairs hp =>
                obtain ⟨b, hb, rfl⟩ := choosePairs_ok hp
                have hbl := hc q b hb
                have hdoc : ∀ p ∈ genPairsFromIdx b (List.range q.length), p.u < q.length ∧ p.v < q.length := by
                  intro p hp
                  obtain ⟨h3, _, h5⟩ := C02_gen_pairs_irrefl b _ p hp
                  have hdk := genPairs_dk b _ p hp
                  simp only [winner, loser, hdk, if_true, List.mem_range] at h3 h5
                  exact ⟨h3 ▸ hbl, h5⟩
                obtain ⟨a1, a2, a3, _⟩ := modelAdd_facts pareto hd st hst q (.pairs _) hdoc
                unfold thenAdd recordChoice at h
                split at h
                · cases h
                · next st1 he =>
                  rw [he] at a2 a3
                  simp only at a2 a3
                  split at h
                  · cases h
                  · next fl hfl =>
                    simp only [Prod.mk.injEq, Except.ok.injEq] at h
                    obtain ⟨rfl, rfl⟩ := h
                    have hflag : fl = if b = c then 1 else 0 := by
                      have hmem : ∀ p ∈ genPairsFromIdx b (List.range q.length), p.u = b := by
                        intro p hp
                        obtain ⟨h3, _, _⟩ := C02_gen_pairs_irrefl b _ p hp
                        simpa only [winner, genPairs_dk b _ p hp, if_true] using h3
                      cases hg : genPairsFromIdx b (List.range q.length) with
                      | nil => rw [hg] at hfl; cases hfl
                      | cons p ps =>
                        rw [hg] at hfl
                        have := hmem p (by rw [hg]; simp)
                        simp only [correctFlag, Except.ok.injEq] at hfl
                        rw [← hfl, this]
                        simp only [eq_comm]
                    refine ⟨a3, q, hshown, ?_, ?_, .inr ⟨b, c, by omega, hb, npArgmax_firstBest hcor, by rw [hflag], ?_, ?_⟩⟩
                    · rw [a2]; rfl
                    · rw [a2]; rfl
                    · rw [a2]; rfl
                    · rw [a2]
                      simp only [Facts.after]
                      rw [genPairs_points]
                      rfl

/-- C102 (a prior without a dominated point): when no point drawn for the prior lies strictly above another one, the run ends
with a `TypeError` before its first pass; the points drawn stay in the training data, without any statement about them. -/
theorem C102_prior_false (selType : String) (perfect linear : Bool) (s : StartData d) (pts : List (Fin d → ℝ))
    (hs : s.priorPts = some pts) (hp : ∀ x ∈ pts, ∀ z ∈ pts, ¬ ∀ k, z k < x k) (eval0 : Except PyErr Unit)
    (steps : List (DataIn d)) :
    (dataRun selType perfect true linear s eval0 steps).2 = .error .typeError ∧
    decode (dataRun selType perfect true linear s eval0 steps).1 = { points := pts } := by
  have hauto : paretoPairs 0 pts pts = [] := by
    simp only [paretoPairs, List.flatMap_eq_nil_iff, List.map_eq_nil_iff, List.filter_eq_nil_iff, Prod.forall, strictlyAbove,
      decide_eq_true_eq]
    intro x a hx z b hz
    exact hp x (List.fst_mem_of_mem_zipIdx hx) z (List.fst_mem_of_mem_zipIdx hz)
  have : startPrior true s ({} : ModelState d ℝ ℝ) =
      ({ X := some pts, prior := some (0, ((0 + pts.length : Nat) : Int)) }, some .typeError) := by
    simp [startPrior, hs, addPrior, modelAdd, addLabels, hauto, removeUnreferenced]
  unfold dataRun startRun
  rw [this]
  exact ⟨rfl, rfl⟩

/-- C102 (the data before the first pass): without a prior, a run without passes stores the point given before it with its
rating, and for the linear model nothing at all. -/
theorem C102_start {pareto : Bool} (hd : pareto = true → 0 < d) (selType : String) (perfect linear : Bool) (x : Fin d → ℝ) (v : ℝ)
    (hv : 0 ≤ v ∧ v ≤ 1) (eval0 : Except PyErr Unit) :
    decode (dataRun selType perfect pareto linear { absPoint := some (x, v) } eval0 []).1 =
      if linear then {} else { points := [x], rates := [(some x, max (1 / 1000) (min (999 / 1000) v))] } := by
  cases linear with
  | true =>
    rw [if_pos rfl]
    cases eval0 <;> rfl
  | false =>
    rw [if_neg (by simp)]
    obtain ⟨a1, a2, _⟩ := modelAdd_facts pareto hd ({} : ModelState d ℝ ℝ) (by simp [InRange]) [x] (.absVec [v])
      ⟨rfl, by simpa using hv⟩
    have h : (dataRun selType perfect pareto false { absPoint := some (x, v) } eval0 []).1 =
        (modelAdd pareto ({} : ModelState d ℝ ℝ) [x] (.absVec [v])).1 := by
      simp only [dataRun, startRun, startPrior, startAbs, Bool.false_eq_true, if_false]
      generalize modelAdd pareto ({} : ModelState d ℝ ℝ) [x] (.absVec [v]) = r at a1
      obtain ⟨st, e⟩ := r
      simp only at a1
      subst a1
      cases eval0 <;> rfl
    rw [h, a2]
    have hx : autoPrefs [x] [x] = [] ∨ pareto = false := by
      cases pareto with
      | false => exact .inr rfl
      | true => exact .inl (by simp [autoPrefs]; exact ⟨⟨0, hd rfl⟩⟩)
    rcases hx with hx | hx <;> simp [Facts.after, decode, hx]

theorem thenAdd_ok {pareto : Bool} (hd : pareto = true → 0 < d) {st : ModelState d ℝ ℝ} (hst : InRange st)
    (X : List (Fin d → ℝ)) (inp : AddInput ℝ) (hdoc : Documented (Op.add X inp)) (k : ModelState d ℝ ℝ → RunState d) :
    ∃ st', InRange st' ∧ thenAdd pareto st X inp k = k st' := by
  obtain ⟨h1, _, h3, _⟩ := modelAdd_facts pareto hd st hst X inp hdoc
  refine ⟨_, h3, ?_⟩
  unfold thenAdd
  split
  · next he => rw [he] at h1; cases h1
  · next he => rw [he]

/-- A pass that can be carried out, with a user that answers, raises nothing. -/
theorem dataStep_ok {selType : String} (hs : selType = "choose1" ∨ selType = "rating" ∨ selType = "switch")
    (perfect : Bool) {pareto : Bool} (hd : pareto = true → 0 < d) {i : DataIn d} (hf : Feasible i) (ha : Answers i)
    {st : ModelState d ℝ ℝ} (hst : InRange st) :
    ∃ st' r, InRange st' ∧ dataStep selType perfect pareto i st = (st', .ok r) := by
  obtain ⟨rows, hrows, sel, hidden, hsel, hne, hin, hhin⟩ := hf.rows
  obtain ⟨q, hq, hql, _⟩ := takeRows_positions hin
  have hqne : q ≠ [] := by
    intro h
    rw [h] at hql
    exact hne (List.length_eq_zero_iff.1 hql.symm)
  obtain ⟨b, hb, hc⟩ := ha.choose q hqne
  have hp : choosePairs i.choose q = .ok (genPairsFromIdx b (List.range q.length)) := by
    rw [choosePairs, hc]; rfl
  have hdoc : Documented (Op.add q (.pairs (genPairsFromIdx b (List.range q.length))) : Op d ℝ ℝ) := by
    intro p hp
    obtain ⟨h3, _, h5⟩ := C02_gen_pairs_irrefl b _ p hp
    have hdk := genPairs_dk b _ p hp
    simp only [winner, loser, hdk, if_true, List.mem_range] at h3 h5
    exact ⟨h3 ▸ hb, h5⟩
  have hrate : ∀ l : List (Fin d → ℝ), ∃ rs, rateAll i.rate l = .ok rs ∧ rs.length = l.length ∧ ∀ r ∈ rs, 0 ≤ r ∧ r ≤ 1 := by
    intro l
    induction l with
    | nil => exact ⟨[], rfl, rfl, by simp⟩
    | cons x xs ih =>
      obtain ⟨rs, h1, h2, h3⟩ := ih
      obtain ⟨r, h4, h5⟩ := ha.rate x
      exact ⟨r :: rs, by simp [rateAll, h4, h1], by simp [h2], by simpa using ⟨h5, h3⟩⟩
  unfold dataStep
  rw [if_neg (by have := hf.two; omega), hrows]
  simp only
  rcases hs with rfl | rfl | rfl
  · rw [if_pos rfl]
    unfold dataChoose
    simp only [hsel, hq, hp]
    obtain ⟨st1, hr1, he1⟩ := thenAdd_ok hd hst q _ hdoc (fun st => addHiddenPaths pareto st rows hidden)
    rw [he1]
    unfold addHiddenPaths
    split
    · obtain ⟨h, hh, _⟩ := takeRows_positions hhin
      rw [hh]
      simp only
      obtain ⟨st2, hr2, he2⟩ := thenAdd_ok hd hr1 h (.pairs []) (by simp [Documented])
        (fun st => (st, .ok (pairQuery, -1)))
      exact ⟨st2, _, hr2, he2⟩
    · exact ⟨st1, _, hr1, rfl⟩
  · rw [if_neg (by decide), if_neg (by decide), if_pos rfl]
    unfold dataRating
    rw [hsel]
    obtain ⟨s, rest, rfl⟩ := List.exists_cons_of_ne_nil hne
    have hs := hin s (by simp)
    obtain ⟨r, h4, h5⟩ := ha.rate rows[s]
    simp only [List.getElem?_eq_getElem hs, h4]
    obtain ⟨st1, hr1, he1⟩ := thenAdd_ok hd hst [rows[s]] (.absVec [r]) ⟨rfl, by simpa using h5⟩
      (fun st => (st, .ok (absQuery, -1)))
    exact ⟨st1, _, hr1, he1⟩
  · rw [if_neg (by decide), if_neg (by decide), if_neg (by decide), if_pos rfl]
    unfold dataSwitch
    simp only [hsel, hq]
    split
    · obtain ⟨rs, h1, h2, h3⟩ := hrate q
      simp only [h1]
      obtain ⟨st1, hr1, he1⟩ := thenAdd_ok hd hst q (.absVec rs) ⟨h2, h3⟩ (fun st => (st, .ok (absQuery, -1)))
      exact ⟨st1, _, hr1, he1⟩
    · next hlen =>
      obtain ⟨c, hcor⟩ := npArgmax_isOk (l := q.map i.util) (by simpa using hqne)
      simp only [hcor, hp]
      obtain ⟨st1, hr1, he1⟩ := thenAdd_ok hd hst q _ hdoc (recordChoice c (genPairsFromIdx b (List.range q.length)))
      rw [he1]
      have hl : (genPairsFromIdx b (List.range q.length)).length = q.length - 1 := by
        have := congrArg List.length (genPairs_points q b)
        simpa [List.length_eraseIdx, hb] using this
      have hql' : sel.length ≠ 0 := fun h0 => hne (List.length_eq_zero_iff.1 h0)
      cases hg : genPairsFromIdx b (List.range q.length) with
      | nil => rw [hg] at hl; simp at hl; omega
      | cons p ps => exact ⟨st1, (pairQuery, if c = p.u then 1 else 0), hr1, rfl⟩

/-- A prior with a point above another is added without an exception. -/
theorem startRun_ok {pareto : Bool} (hd : pareto = true → 0 < d) (linear : Bool) (s : StartData d)
    (hv : ∀ x v, s.absPoint = some (x, v) → 0 ≤ v ∧ v ≤ 1)
    (hp : pareto = true → ∀ pts, s.priorPts = some pts → ∃ x ∈ pts, ∃ z ∈ pts, ∀ k, z k < x k) :
    ∃ st, InRange st ∧ startRun pareto linear s ({} : ModelState d ℝ ℝ) = (st, none) := by
  have h0 : InRange ({} : ModelState d ℝ ℝ) := by simp [InRange]
  have hpr : ∃ st, InRange st ∧ startPrior pareto s ({} : ModelState d ℝ ℝ) = (st, none) := by
    unfold startPrior
    cases hpts : s.priorPts with
    | none => exact ⟨{}, h0, rfl⟩
    | some pts =>
      simp only
      unfold addPrior
      cases pareto with
      | false => exact ⟨{}, h0, rfl⟩
      | true =>
        obtain ⟨x, hx, z, hz, hk⟩ := hp rfl pts hpts
        rw [if_neg (by simp)]
        simp only [Option.getD_none, List.length_nil]
        set st0 : ModelState d ℝ ℝ := { prior := some (0, ((0 + pts.length : Nat) : Int)) } with hst0
        obtain ⟨h1, h2, h3, _⟩ := modelAdd_facts true hd st0 (by simp [InRange, hst0]) pts (.pairs []) (by simp [Documented])
        have h4 := modelAdd_pairs_labels true st0 pts []
        have hprior : (modelAdd true st0 pts (.pairs [])).1.prior ≠ none := by
          unfold modelAdd addLabels
          simp [hst0]
        generalize modelAdd true st0 pts (.pairs []) = r at h1 h2 h3 h4 hprior ⊢
        obtain ⟨st1, e⟩ := r
        simp only at h1 h2 h3 h4 hprior
        subst h1
        simp only
        have hpts' : (decode st1).points = pts := by rw [h2]; simp [Facts.after, decode, hst0]
        have hprefs : (decode st1).prefs ≠ [] := by
          rw [h2]
          simp only [Facts.after, List.map_nil, List.append_nil]
          intro hc
          have : (some x, some z) ∈ autoPrefs pts ((decode st0).points ++ pts) := by
            simp only [autoPrefs, List.mem_flatMap, List.mem_map, List.mem_filter, decide_eq_true_eq]
            exact ⟨x, hx, z, ⟨by simp [hz], hk⟩, rfl⟩
          simp only [if_true, List.append_eq_nil_iff] at hc
          rw [hc.2] at this
          simp at this
        have hX : ∃ X, st1.X = some X := by
          cases hX : st1.X with
          | none =>
            simp only [decode, hX, Option.getD_none] at hpts'
            rw [← hpts'] at hx
            simp at hx
          | some X => exact ⟨X, rfl⟩
        have hps : ∃ ps, st1.y.rel = some ps := by
          cases hps : st1.y.rel with
          | none => simp [decode, hps] at hprefs
          | some ps => exact ⟨ps, rfl⟩
        obtain ⟨X, hX⟩ := hX
        obtain ⟨ps, hps⟩ := hps
        obtain ⟨_, _, _, c4, c5⟩ := C19_pairs_keep_meaning_partial st1 h3 X ps hX hps
        have := c4 h4.1 h4.2
        exact ⟨_, this.1, by rw [← c5.2 hprior]⟩
  obtain ⟨st, hst, he⟩ := hpr
  unfold startRun
  rw [he]
  simp only
  unfold startAbs
  split
  · exact ⟨st, hst, rfl⟩
  · next x v hx =>
    split
    · exact ⟨st, hst, rfl⟩
    · obtain ⟨h1, _, h3, _⟩ := modelAdd_facts pareto hd st hst [x] (.absVec [v]) ⟨rfl, by simpa using hv x v hx⟩
      exact ⟨_, h3, by rw [← h1]⟩

/-- C102 (never rejected): when at least two candidates are offered in every pass, the selection gives positions, the user
answers, a prior has a point above another and a given rating is within [0,1], a run of choices, ratings or both completes:
none of its additions is refused, and there is one entry per pass. -/
theorem C102_completes {selType : String} (hs : selType = "choose1" ∨ selType = "rating" ∨ selType = "switch")
    (perfect linear : Bool) {pareto : Bool} (hd : pareto = true → 0 < d) (s : StartData d)
    (hv : ∀ x v, s.absPoint = some (x, v) → 0 ≤ v ∧ v ≤ 1)
    (hp : pareto = true → ∀ pts, s.priorPts = some pts → ∃ x ∈ pts, ∃ z ∈ pts, ∀ k, z k < x k)
    (steps : List (DataIn d)) (hf : ∀ i ∈ steps, Feasible i) (ha : ∀ i ∈ steps, Answers i) :
    ∃ qs, (dataRun selType perfect pareto linear s (.ok ()) steps).2 = .ok qs ∧ qs.length = steps.length := by
  have key : ∀ (steps : List (DataIn d)) (st : ModelState d ℝ ℝ), (∀ i ∈ steps, Feasible i) → (∀ i ∈ steps, Answers i) →
      InRange st → ∃ st' qs, dataLoop selType perfect pareto steps st = (st', .ok qs) ∧ qs.length = steps.length := by
    intro steps
    induction steps with
    | nil => intro st _ _ _; exact ⟨st, [], rfl, rfl⟩
    | cons i rest ih =>
      intro st hf ha hst
      obtain ⟨st1, r, hr1, he⟩ := dataStep_ok hs perfect hd (hf i (by simp)) (ha i (by simp)) hst
      obtain ⟨st2, qs, he2, hl⟩ := ih st1 (fun j hj => hf j (by simp [hj])) (fun j hj => ha j (by simp [hj])) hr1
      refine ⟨st2, r :: qs, ?_, by simp [hl]⟩
      rw [dataLoop, he]
      simp only [(hf i (by simp)).eval, he2]
  obtain ⟨st, hst, he⟩ := startRun_ok hd linear s hv hp
  obtain ⟨st', qs, h1, h2⟩ := key steps st hf ha hst
  refine ⟨qs, ?_, h2⟩
  unfold dataRun
  rw [he]
  simp only [h1]

/-- The synthetic users of the code answer: a perfect user on every query, a human one with non-negative noise and a draw in
[0,1). -/
theorem answers_of (f : (Fin d → ℝ) → ℝ) (i : DataIn d)
    (h : (i.choose = perfectChoose f ∧ i.rate = fun x => .ok (perfectRate f x)) ∨
      ∃ u : HumanUser, ∃ r : ℝ, ∃ z : (Fin d → ℝ) → ℝ, 0 ≤ u.sigma ∧ 0 ≤ r ∧ r < 1 ∧ i.choose = humanChoose u f r ∧
        i.rate = fun x => humanRate u f x (z x)) : Answers i := by
  rcases h with ⟨hc, hr⟩ | ⟨u, r, z, hs, h0, h1, hc, hr⟩
  · refine ⟨fun q hq => ?_, fun x => ?_⟩
    · obtain ⟨b, x, h1, h2, _⟩ := (C60_perfect_choice f q).2 hq
      exact ⟨b, (List.getElem?_eq_some_iff.1 h2).1, by rw [hc]; exact h1⟩
    · obtain ⟨h1, h2⟩ := (C60_rating_bounds f x {} 0).1
      exact ⟨_, by rw [hr], h1.le, h2.le⟩
  · refine ⟨fun q hq => ?_, fun x => ?_⟩
    · obtain ⟨b, hb, h2, _⟩ := (C60_human_choice u f q hq).1 r h0 h1
      exact ⟨b, hb, by rw [hc]; exact h2⟩
    · obtain ⟨y, h1, h2, h3⟩ := (C60_rating_bounds f x u (z x)).2.2 hs
      exact ⟨y, by rw [hr]; exact h1, h2.le, h3.le⟩

/-- The pass of C83 with the same inputs and given outcomes of rating and additions. -/
def passOf (i : DataIn d) (R A H : Except PyErr Unit) : TrainIn (Fin d → ℝ) := ⟨i.rewards, i.select, i.choose, i.util, R, A, H⟩

theorem thenAdd_cases (pareto : Bool) (st : ModelState d ℝ ℝ) (X : List (Fin d → ℝ)) (inp : AddInput ℝ)
    (k : ModelState d ℝ ℝ → RunState d) :
    (∃ e, (thenAdd pareto st X inp k).2 = .error e) ∨ ∃ st', thenAdd pareto st X inp k = k st' := by
  unfold thenAdd
  split
  · next e he => exact .inl ⟨e, rfl⟩
  · next st' he => exact .inr ⟨st', rfl⟩

theorem dataChoose_refines (perfect pareto : Bool) (i : DataIn d) (st : ModelState d ℝ ℝ) (rows : List (Fin d → ℝ)) :
    ∃ A H, stepChoose false perfect (passOf i (.ok ()) A H) rows = (dataChoose pareto i st rows).2 := by
  unfold stepChoose dataChoose passOf
  simp only [Bool.false_eq_true, if_false]
  cases hs : i.select with
  | error e => exact ⟨.ok (), .ok (), rfl⟩
  | ok p =>
    obtain ⟨sel, hidden⟩ := p
    simp only
    cases hq : takeRows rows sel with
    | error e => exact ⟨.ok (), .ok (), rfl⟩
    | ok q =>
      simp only
      cases hp : choosePairs i.choose q with
      | error e => exact ⟨.ok (), .ok (), rfl⟩
      | ok pairs =>
        simp only
        rcases thenAdd_cases pareto st q (.pairs pairs) (fun st => addHiddenPaths pareto st rows hidden) with ⟨e, he⟩ | ⟨st1, he⟩
        · exact ⟨.error e, .ok (), he.symm⟩
        · rw [he]
          unfold addHiddenPaths
          by_cases hh : pareto = true ∧ hidden.length > 0
          · rw [if_pos hh]
            simp only [hh.2, if_true]
            cases hr : takeRows rows hidden with
            | error e => exact ⟨.ok (), .error e, rfl⟩
            | ok h =>
              simp only
              rcases thenAdd_cases pareto st1 h (.pairs []) (fun st => (st, .ok (pairQuery, -1))) with ⟨e, he⟩ | ⟨st2, he⟩
              · exact ⟨.ok (), .error e, he.symm⟩
              · rw [he]; exact ⟨.ok (), .ok (), rfl⟩
          · rw [if_neg hh]
            refine ⟨.ok (), .ok (), ?_⟩
            simp only [ite_self]

theorem dataRanking_refines (perfect : Bool) (i : DataIn d) (st : ModelState d ℝ ℝ) (rows : List (Fin d → ℝ)) :
    ∃ A H, stepChoose true perfect (passOf i (.ok ()) A H) rows = (dataRanking perfect i st rows).2 := by
  refine ⟨.error .typeError, .ok (), ?_⟩
  unfold stepChoose dataRanking passOf
  simp only [if_true]
  cases hs : i.select with
  | error e => rfl
  | ok p =>
    obtain ⟨sel, hidden⟩ := p
    simp only
    cases hq : takeRows rows sel with
    | error e => rfl
    | ok q => cases perfect <;> rfl

theorem dataRating_refines (pareto : Bool) (i : DataIn d) (st : ModelState d ℝ ℝ) (rows : List (Fin d → ℝ)) :
    ∃ R A, stepRating (passOf i R A (.ok ())) rows = (dataRating pareto i st rows).2 := by
  unfold stepRating dataRating passOf
  simp only
  cases hs : i.select with
  | error e => exact ⟨.ok (), .ok (), rfl⟩
  | ok p =>
    obtain ⟨sel, hidden⟩ := p
    simp only
    cases sel with
    | nil => exact ⟨.ok (), .ok (), rfl⟩
    | cons s rest =>
      simp only
      cases hx : rows[s]? with
      | none => exact ⟨.ok (), .ok (), rfl⟩
      | some x =>
        simp only
        cases hr : i.rate x with
        | error e => exact ⟨.error e, .ok (), rfl⟩
        | ok r =>
          simp only
          rcases thenAdd_cases pareto st [x] (.absVec [r]) (fun st => (st, .ok (absQuery, -1))) with ⟨e, he⟩ | ⟨st1, he⟩
          · exact ⟨.ok (), .error e, he.symm⟩
          · rw [he]; exact ⟨.ok (), .ok (), rfl⟩

theorem dataSwitch_refines (pareto : Bool) (i : DataIn d) (st : ModelState d ℝ ℝ) (rows : List (Fin d → ℝ)) :
    ∃ R A, stepSwitch (passOf i R A (.ok ())) rows = (dataSwitch pareto i st rows).2 := by
  unfold stepSwitch dataSwitch passOf
  simp only
  cases hs : i.select with
  | error e => exact ⟨.ok (), .ok (), rfl⟩
  | ok p =>
    obtain ⟨sel, hidden⟩ := p
    simp only
    cases hq : takeRows rows sel with
    | error e => exact ⟨.ok (), .ok (), rfl⟩
    | ok q =>
      simp only
      split
      · cases hr : rateAll i.rate q with
        | error e => exact ⟨.error e, .ok (), rfl⟩
        | ok rs =>
          simp only
          rcases thenAdd_cases pareto st q (.absVec rs) (fun st => (st, .ok (absQuery, -1))) with ⟨e, he⟩ | ⟨st1, he⟩
          · exact ⟨.ok (), .error e, he.symm⟩
          · rw [he]; exact ⟨.ok (), .ok (), rfl⟩
      · cases hc : npArgmax (q.map i.util) with
        | error e => exact ⟨.ok (), .ok (), rfl⟩
        | ok c =>
          simp only
          cases hp : choosePairs i.choose q with
          | error e => exact ⟨.ok (), .ok (), rfl⟩
          | ok pairs =>
            simp only
            rcases thenAdd_cases pareto st q (.pairs pairs) (recordChoice c pairs) with ⟨e, he⟩ | ⟨st1, he⟩
            · exact ⟨.ok (), .error e, he.symm⟩
            · rw [he]
              refine ⟨.ok (), .ok (), ?_⟩
              unfold recordChoice
              simp only
              cases correctFlag c pairs <;> rfl

/-- A pass with the data carried out is a pass of C83 with the outcome of the additions filled in. -/
theorem dataStep_refines (selType : String) (perfect pareto : Bool) (i : DataIn d) (h2 : 2 ≤ i.paths.length)
    (st : ModelState d ℝ ℝ) : ∃ R A H, trainStep selType perfect (passOf i R A H) = (dataStep selType perfect pareto i st).2 := by
  unfold dataStep trainStep
  rw [if_neg (by omega)]
  have hp : ∀ R A H, (passOf i R A H).rewards = i.rewards := fun _ _ _ => rfl
  simp only [hp]
  cases hr : i.rewards with
  | error e => exact ⟨.ok (), .ok (), .ok (), rfl⟩
  | ok rows =>
    simp only
    by_cases h1 : selType = "choose1"
    · obtain ⟨A, H, h⟩ := dataChoose_refines perfect pareto i st rows
      refine ⟨.ok (), A, H, ?_⟩
      subst h1
      simpa using h
    · by_cases h3 : selType = "ranking"
      · obtain ⟨A, H, h⟩ := dataRanking_refines perfect i st rows
        refine ⟨.ok (), A, H, ?_⟩
        subst h3
        simpa using h
      · simp only [h1, h3, if_false, or_self]
        split
        · obtain ⟨R, A, h⟩ := dataRating_refines pareto i st rows
          exact ⟨R, A, .ok (), h⟩
        · split
          · obtain ⟨R, A, h⟩ := dataSwitch_refines pareto i st rows
            exact ⟨R, A, .ok (), h⟩
          · exact ⟨.ok (), .ok (), .ok (), rfl⟩

/-- C102 (records): the arrays of the run are those of C83 for the same candidates, selections, user and utilities, whatever the
data so far: the additions decide only whether the run goes on. -/
theorem C102_refines (selType : String) (perfect pareto : Bool) (steps : List (DataIn d))
    (h2 : ∀ i ∈ steps, 2 ≤ i.paths.length) (st : ModelState d ℝ ℝ) :
    ∃ ts : List (TrainIn (Fin d → ℝ) × Except PyErr Unit), ts.length = steps.length ∧
      (∀ (j : Nat) i t, steps[j]? = some i → ts[j]? = some t → t.1.rewards = i.rewards ∧ t.1.select = i.select ∧
        t.1.choose = i.choose ∧ t.1.util = i.util ∧ t.2 = i.eval) ∧
      (trainLoop selType perfect ts).map (·.1) = (dataLoop selType perfect pareto steps st).2 := by
  induction steps generalizing st with
  | nil => exact ⟨[], rfl, by simp, rfl⟩
  | cons i rest ih =>
    obtain ⟨R, A, H, h⟩ := dataStep_refines selType perfect pareto i (h2 i (by simp)) st
    have ih := ih fun j hj => h2 j (by simp [hj])
    obtain ⟨ts, t1, t2, t3⟩ := ih (dataStep selType perfect pareto i st).1
    refine ⟨(passOf i R A H, i.eval) :: ts, by simp [t1], ?_, ?_⟩
    · intro j i' t e1 e2
      cases j with
      | zero =>
        simp only [List.getElem?_cons_zero, Option.some.injEq] at e1 e2
        subst e1 e2
        exact ⟨rfl, rfl, rfl, rfl, rfl⟩
      | succ j =>
        simp only [List.getElem?_cons_succ] at e1 e2
        exact t2 j i' t e1 e2
    · rw [trainLoop, dataLoop, h]
      generalize dataStep selType perfect pareto i st = r at *
      obtain ⟨st1, res⟩ := r
      cases res with
      | error e => rfl
      | ok q =>
        simp only at t3 ⊢
        cases i.eval with
        | error e => rfl
        | ok u =>
          simp only
          generalize dataLoop selType perfect pareto rest st1 = r2 at *
          obtain ⟨st2, res2⟩ := r2
          simp only at t3
          cases ht : trainLoop selType perfect ts with
          | error e => rw [ht] at t3; simp only [Except.map] at t3; subst t3; rfl
          | ok p => rw [ht] at t3; obtain ⟨qs, ms⟩ := p; simp only [Except.map] at t3; subst t3; rfl

/-- C102 (the utility must respect dominance): with Pareto pairs on and a utility that decreases, a run with a perfect user stores
a preference that is false. -/
theorem C102_nonmonotone_counterexample :
    ∃ f : (Fin 1 → ℝ) → ℝ, ∃ i : DataIn 1, PerfectIn f i ∧ Feasible i ∧
      ∃ w l, (some w, some l) ∈ (decode (dataRun "choose1" true true false {} (.ok ()) [i]).1).prefs ∧ f w < f l := by
  let f : (Fin 1 → ℝ) → ℝ := fun x => -x 0
  let i : DataIn 1 := { paths := [![0], ![1]], rewards := .ok [![0], ![1]], select := .ok ([0, 1], []),
                        choose := perfectChoose f, rate := fun x => .ok (perfectRate f x), util := f, eval := .ok () }
  have hP : PerfectIn f i := perfectIn_of rfl rfl
  have hF : Feasible i := ⟨by simp [i], ⟨_, rfl, _, _, rfl, by simp, by simp, by simp⟩, rfl⟩
  refine ⟨f, i, hP, hF, ![1], ![0], ?_, by simp [f]⟩
  have hA : Answers i := answers_of f i (.inl ⟨rfl, rfl⟩)
  obtain ⟨st', r, _, he⟩ := dataStep_ok (d := 1) (.inl rfl) true (pareto := true) (by simp) hF hA (st := {}) (by simp [InRange])
  obtain ⟨_, q, hid, b, ⟨rows, sel, hidden, e1, e2, e3⟩, _, _, _, _, h5, _⟩ := C102_step (by simp)
    (fun q b hb => (List.getElem?_eq_some_iff.1 (hP.choose q b hb).choose_spec.1).1 |> fun h => by simpa using h)
    (by simp [InRange]) he
  have hdec : (dataRun "choose1" true true false {} (.ok ()) [i]).1 = st' := by
    simp only [dataRun, startRun, startPrior, startAbs, dataLoop, he]
    rfl
  rw [hdec, h5]
  simp only [i, Except.ok.injEq, Prod.mk.injEq] at e1 e2
  obtain ⟨rfl, rfl⟩ := e2
  subst e1
  have hq : q = [![0], ![1]] := by
    have : q.map some = [![0], ![1]].map some := by rw [e3]; rfl
    exact List.map_injective_iff.2 (Option.some_injective _) this
  subst hq
  simp only [List.mem_append, if_true]
  refine .inr (.inl ?_)
  simp [autoPrefs, decode]

/-- A run of two choices by a perfect user meets the hypotheses of the theorems above. -/
example : ∃ (f : (Fin 1 → ℝ) → ℝ) (steps : List (DataIn 1)), steps.length = 2 ∧ (∀ i ∈ steps, PerfectIn f i) ∧
    (∀ i ∈ steps, Feasible i) ∧ (∀ i ∈ steps, Answers i) ∧ ∀ x z : Fin 1 → ℝ, (∀ k, z k < x k) → f z ≤ f x := by
  let f : (Fin 1 → ℝ) → ℝ := fun x => x 0
  let i : DataIn 1 := { paths := [![0], ![1]], rewards := .ok [![0], ![1]], select := .ok ([0, 1], []),
                        choose := perfectChoose f, rate := fun x => .ok (perfectRate f x), util := f, eval := .ok () }
  refine ⟨f, [i, i], rfl, ?_, ?_, ?_, fun x z h => (h 0).le⟩
  · simpa using perfectIn_of (f := f) (i := i) rfl rfl
  · have hF : Feasible i := ⟨by simp [i], ⟨_, rfl, _, _, rfl, by simp, by simp, by simp⟩, rfl⟩
    simpa using hF
  · simpa using answers_of f i (.inl ⟨rfl, rfl⟩)

end Lop.Props
