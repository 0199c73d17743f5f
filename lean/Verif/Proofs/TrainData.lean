import Verif.Spec.TrainData
import Verif.Proofs.Data
import Verif.Props.SynthUser
import Verif.Props.Data
import Verif.Props.TrainLoop
import Verif.Props.Downselect

/-! # Helper lemmas about the data gathered by a training run -/

namespace Lop

open Lop.Spec Lop.Props

variable {d : Nat}

theorem thenAdd_inv {I : ModelState d ℝ ℝ → Prop} {pareto : Bool} {st : ModelState d ℝ ℝ} {X : List (Fin d → ℝ)}
    {inp : AddInput ℝ} {k : ModelState d ℝ ℝ → RunState d} (h : I (modelAdd pareto st X inp).1)
    (hk : ∀ st, I st → I (k st).1) : I (thenAdd pareto st X inp k).1 := by
  unfold thenAdd
  split
  · next st' e he => rw [he] at h; exact h
  · next st' he => rw [he] at h; exact hk _ h

/-- What holds of the training data before and is kept by every `add` of the loop holds afterwards, also when the loop is left by
an exception. -/
theorem dataStep_inv {I : ModelState d ℝ ℝ → Prop} {selType : String} {perfect pareto : Bool} {i : DataIn d}
    (hc : ∀ q pairs st, Shown i q → choosePairs i.choose q = .ok pairs → I st → I (modelAdd pareto st q (.pairs pairs)).1)
    (hh : ∀ q st, I st → I (modelAdd pareto st q (.pairs [])).1)
    (hr : ∀ q rs st, (∀ x ∈ q, Offered i x) → rateAll i.rate q = .ok rs → I st → I (modelAdd pareto st q (.absVec rs)).1)
    {st : ModelState d ℝ ℝ} (h : I st) : I (dataStep selType perfect pareto i st).1 := by
  have hidden : ∀ rows hid st, I st → I (addHiddenPaths pareto st rows hid).1 := by
    intro rows hid st h
    unfold addHiddenPaths
    split
    · split
      · exact h
      · exact thenAdd_inv (hh _ _ h) fun st h => h
    · exact h
  unfold dataStep
  split
  · exact h
  · split
    · exact h
    · next rows hrows =>
      have offered : ∀ {sel hidden q}, i.select = .ok (sel, hidden) → takeRows rows sel = .ok q →
          Shown i q ∧ ∀ x ∈ q, Offered i x := by
        intro sel hidden q hsel hq
        have hs := takeRows_spec hq
        refine ⟨⟨rows, sel, hidden, hrows, hsel, hs.symm⟩, fun x hx => ?_⟩
        have : some x ∈ sel.map (rows[·]?) := by rw [hs]; exact List.mem_map.2 ⟨x, hx, rfl⟩
        obtain ⟨n, hn, hx'⟩ := List.mem_map.1 this
        exact ⟨rows, sel, hidden, n, hrows, hsel, hn, hx'⟩
      split
      · unfold dataChoose
        split
        · exact h
        · next hsel =>
          split
          · exact h
          · next hq =>
            split
            · exact h
            · next hp => exact thenAdd_inv (hc _ _ _ (offered hsel hq).1 hp h) fun st h => hidden _ _ _ h
      · split
        · unfold dataRanking
          split
          · exact h
          · split
            · exact h
            · split <;> exact h
        · split
          · unfold dataRating
            split
            · exact h
            · next hsel =>
              split
              · exact h
              · split
                · exact h
                · next x hx =>
                  split
                  · exact h
                  · next r hxr =>
                    refine thenAdd_inv (hr [x] [r] _ ?_ (by simp [rateAll, hxr]) h) fun st h => h
                    simp only [List.mem_singleton, forall_eq]
                    exact ⟨rows, _, _, _, hrows, hsel, by simp, hx⟩
          · split
            · unfold dataSwitch
              split
              · exact h
              · next hsel =>
                split
                · exact h
                · next hq =>
                  split
                  · split
                    · exact h
                    · next hx => exact thenAdd_inv (hr _ _ _ (offered hsel hq).2 hx h) fun st h => h
                  · split
                    · exact h
                    · split
                      · exact h
                      · next hp =>
                        exact thenAdd_inv (hc _ _ _ (offered hsel hq).1 hp h) fun st h => by
                          unfold recordChoice; split <;> exact h
            · exact h

theorem dataLoop_inv {I : ModelState d ℝ ℝ → Prop} {selType : String} {perfect pareto : Bool} {steps : List (DataIn d)}
    (hc : ∀ i ∈ steps, ∀ q pairs st, Shown i q → choosePairs i.choose q = .ok pairs → I st →
      I (modelAdd pareto st q (.pairs pairs)).1)
    (hh : ∀ q st, I st → I (modelAdd pareto st q (.pairs [])).1)
    (hr : ∀ i ∈ steps, ∀ q rs st, (∀ x ∈ q, Offered i x) → rateAll i.rate q = .ok rs → I st →
      I (modelAdd pareto st q (.absVec rs)).1)
    {st : ModelState d ℝ ℝ} (h : I st) : I (dataLoop selType perfect pareto steps st).1 := by
  induction steps generalizing st with
  | nil => exact h
  | cons i rest ih =>
    have h1 := dataStep_inv (selType := selType) (perfect := perfect) (hc i (by simp)) hh (hr i (by simp)) h
    have ih' := fun st => ih (fun j hj => hc j (by simp [hj])) (fun j hj => hr j (by simp [hj])) (st := st)
    unfold dataLoop
    split
    · next st' e he => rw [he] at h1; exact h1
    · next st' q he =>
      rw [he] at h1
      split
      · exact h1
      · have h2 := ih' _ h1
        split
        · next st'' e he' => rw [he'] at h2; exact h2
        · next st'' qs he' => rw [he'] at h2; exact h2

/-! ## The pairs of a choice -/

theorem genPairs_dk (best : Nat) (l : List Nat) : ∀ p ∈ genPairsFromIdx best l, p.dk = -1 := by
  induction l with
  | nil => simp [genPairsFromIdx]
  | cons i rest ih =>
    intro p hp
    unfold genPairsFromIdx at hp
    split at hp
    · rcases List.mem_cons.1 hp with rfl | hp
      · simp [preference, getDkScalar]
      · exact ih p hp
    · exact ih p hp

theorem choosePairs_ok {X : Type*} {choose : List X → Except PyErr Nat} {q : List X} {pairs : List Pair}
    (h : choosePairs choose q = .ok pairs) :
    ∃ b, choose q = .ok b ∧ pairs = genPairsFromIdx b (List.range q.length) := by
  unfold choosePairs at h
  cases hc : choose q with
  | error e => rw [hc] at h; simp [Except.map] at h
  | ok b => rw [hc] at h; simp only [Except.map, Except.ok.injEq] at h; exact ⟨b, rfl, h.symm⟩

/-- The pairs of choosing `b`, read as points. -/
theorem genPairs_points {X : Type*} (q : List X) (b : Nat) :
    (genPairsFromIdx b (List.range q.length)).map (fun p => (q[winner p]?, q[loser p]?)) =
      (q.eraseIdx b).map fun z => (q[b]?, some z) := by
  have h := C02_gen_pairs_exact b (List.range q.length)
  have h2 : (genPairsFromIdx b (List.range q.length)).map (fun p => (q[winner p]?, q[loser p]?)) =
      ((genPairsFromIdx b (List.range q.length)).map (fun p => (winner p, loser p))).map
        fun wl => (q[wl.1]?, q[wl.2]?) := by simp [List.map_map, Function.comp_def]
  rw [h2, h, List.map_map]
  have key : ∀ (l : List X) (b : Nat), ((List.range l.length).filter (· ≠ b)).map (l[·]?) = (l.eraseIdx b).map some := by
    intro l
    induction l with
    | nil => intro b; simp
    | cons x xs ih =>
      intro b
      have hall : (List.range xs.length).map (xs[·]?) = xs.map some := by
        apply List.ext_getElem?
        intro n
        simp only [List.getElem?_map]
        by_cases hn : n < xs.length
        · simp [hn]
        · simp [hn]
      cases b with
      | zero =>
        simp only [List.length_cons, List.range_succ_eq_map, List.eraseIdx_cons_zero]
        rw [List.filter_cons_of_neg (by simp), List.filter_map]
        have : (List.range xs.length).filter ((fun i => decide (i ≠ 0)) ∘ Nat.succ) = List.range xs.length := by
          rw [List.filter_eq_self]; simp
        rw [this, List.map_map]
        simpa [Function.comp_def] using hall
      | succ b =>
        simp only [List.length_cons, List.range_succ_eq_map, List.eraseIdx_cons_succ]
        rw [List.filter_cons_of_pos (by simp), List.filter_map]
        have : ((fun i => decide (i ≠ b + 1)) ∘ Nat.succ) = fun i => decide (i ≠ b) := by
          funext i; simp
        rw [this, List.map_cons, List.map_map, List.map_cons, ← ih b]
        simp [Function.comp_def]
  have k := key q b
  have : (q.eraseIdx b).map (fun z => (q[b]?, some z)) = ((q.eraseIdx b).map some).map fun o => (q[b]?, o) := by
    simp [List.map_map, Function.comp_def]
  rw [this, ← k, List.map_map]
  rfl

/-! ## The invariant -/

/-- Every stored pair says that its first item wins. -/
def FirstWins (st : ModelState d ℝ ℝ) : Prop := ∀ p ∈ st.y.rel.getD [], p.dk = -1

theorem firstWins_add {pareto : Bool} {st : ModelState d ℝ ℝ} (h : FirstWins st) (X : List (Fin d → ℝ)) (inp : AddInput ℝ)
    (hinp : ∀ ps, inp = .pairs ps → ∀ p ∈ ps, p.dk = -1) : FirstWins (modelAdd pareto st X inp).1 := by
  have hl : ∀ y, addLabels st.y (st.X.getD []).length inp = .ok (some y) → ∀ p ∈ y.rel.getD [], p.dk = -1 := by
    intro y hy p hp
    cases inp with
    | pairs ps =>
      have hps := hinp ps rfl
      simp only [addLabels] at hy
      split_ifs at hy
      all_goals
        simp only [Except.ok.injEq, Option.some.injEq] at hy
        subst hy
      all_goals first
        | exact h p hp
        | (simp only [appendOpt, Option.getD_some, List.mem_append] at hp
           rcases hp with hp | hp
           · exact h p hp
           · first
              | exact hps p hp
              | (obtain ⟨p', hp', rfl⟩ := List.mem_map.1 hp
                 exact hps p' hp'))
    | ordinalVec v => simp only [addLabels, addOrd] at hy; split at hy <;> simp at hy; subst hy; exact h p hp
    | ordinalMat v => simp only [addLabels, addOrd] at hy; split at hy <;> simp at hy; subst hy; exact h p hp
    | absVec v => simp only [addLabels, addAbs] at hy; split at hy <;> simp at hy; subst hy; exact h p hp
    | absTuple v => simp only [addLabels, addAbs] at hy; split at hy <;> simp at hy; subst hy; exact h p hp
    | absOther => simp [addLabels] at hy
    | otherType => simp [addLabels] at hy; subst hy; exact h p hp
  unfold modelAdd FirstWins
  simp only
  split
  · exact h
  · exact h
  · next y hy =>
    have hy' := hl y hy
    simp only
    split
    · split
      · exact hy'
      · intro p hp
        simp only [appendOpt, Option.getD_some, List.mem_append] at hp
        rcases hp with hp | hp
        · exact hy' p hp
        · exact ((mem_paretoPairs _ _ _ _).1 hp).1
    · exact hy'

/-- The stored data is in range, every preference is one of `T` (winner, loser) and every rating one of `Q`. -/
structure RunInv (T : (Fin d → ℝ) → (Fin d → ℝ) → Prop) (Q : (Fin d → ℝ) → ℝ → Prop) (st : ModelState d ℝ ℝ) : Prop where
  range : InRange st
  truth : ∀ p ∈ (decode st).prefs, ∃ w l, p = (some w, some l) ∧ T w l
  rated : ∀ r ∈ (decode st).rates, ∃ x v, r = (some x, max (1 / 1000) (min (999 / 1000) v)) ∧ 0 ≤ v ∧ v ≤ 1 ∧ Q x v
  first : FirstWins st

theorem truthful_auto {T : (Fin d → ℝ) → (Fin d → ℝ) → Prop} {pareto : Bool}
    (hmono : pareto = true → ∀ x z : Fin d → ℝ, (∀ k, z k < x k) → T x z) (X all : List (Fin d → ℝ)) :
    ∀ p ∈ (if pareto then autoPrefs X all else []), ∃ w l, p = (some w, some l) ∧ T w l := by
  intro p hp
  cases pareto with
  | false => simp at hp
  | true =>
    simp only [autoPrefs, if_true, List.mem_flatMap, List.mem_map, List.mem_filter, decide_eq_true_eq] at hp
    obtain ⟨x, _, z, ⟨_, hz⟩, rfl⟩ := hp
    exact ⟨x, z, rfl, hmono rfl x z hz⟩

theorem runInv_pairs {T : (Fin d → ℝ) → (Fin d → ℝ) → Prop} {Q : (Fin d → ℝ) → ℝ → Prop} {pareto : Bool} (hd : pareto = true → 0 < d)
    (hmono : pareto = true → ∀ x z : Fin d → ℝ, (∀ k, z k < x k) → T x z) {st : ModelState d ℝ ℝ}
    (h : RunInv T Q st) (X : List (Fin d → ℝ)) (ps : List Pair) (hin : ∀ p ∈ ps, p.u < X.length ∧ p.v < X.length)
    (hdk : ∀ p ∈ ps, p.dk = -1) (ht : ∀ p ∈ ps, ∃ w l, X[winner p]? = some w ∧ X[loser p]? = some l ∧ T w l) :
    RunInv T Q (modelAdd pareto st X (.pairs ps)).1 := by
  obtain ⟨_, h1, h2, _⟩ := modelAdd_facts pareto hd st h.range X (.pairs ps) hin
  refine ⟨h2, ?_, ?_, firstWins_add h.first X _ (by rintro _ ⟨⟩; exact hdk)⟩
  · rw [h1]
    intro p hp
    simp only [Facts.after, List.mem_append] at hp
    rcases hp with (hp | hp) | hp
    · exact h.truth p hp
    · obtain ⟨p', hp', rfl⟩ := List.mem_map.1 hp
      obtain ⟨w, l, hw, hl, hf⟩ := ht p' hp'
      exact ⟨w, l, by rw [hw, hl], hf⟩
    · exact truthful_auto hmono _ _ p hp
  · rw [h1]
    exact h.rated

theorem runInv_abs {T : (Fin d → ℝ) → (Fin d → ℝ) → Prop} {Q : (Fin d → ℝ) → ℝ → Prop} {pareto : Bool} (hd : pareto = true → 0 < d)
    (hmono : pareto = true → ∀ x z : Fin d → ℝ, (∀ k, z k < x k) → T x z) {st : ModelState d ℝ ℝ}
    (h : RunInv T Q st) (X : List (Fin d → ℝ)) (rs : List ℝ) (hl : rs.length = X.length) (hb : ∀ r ∈ rs, 0 ≤ r ∧ r ≤ 1)
    (hr : ∀ p ∈ List.zip X rs, Q p.1 p.2) :
    RunInv T Q (modelAdd pareto st X (.absVec rs)).1 := by
  obtain ⟨_, h1, h2, _⟩ := modelAdd_facts pareto hd st h.range X (.absVec rs) ⟨hl, hb⟩
  refine ⟨h2, ?_, ?_, firstWins_add h.first X _ (by rintro _ ⟨⟩)⟩
  · rw [h1]
    intro p hp
    simp only [Facts.after, List.mem_append] at hp
    rcases hp with hp | hp
    · exact h.truth p hp
    · exact truthful_auto hmono _ _ p hp
  · rw [h1]
    intro r hr'
    simp only [Facts.after, List.mem_append] at hr'
    rcases hr' with hr' | hr'
    · exact h.rated r hr'
    · rw [← List.map_uncurry_zip_eq_zipWith, List.mem_map] at hr'
      obtain ⟨⟨x, v⟩, hp, rfl⟩ := hr'
      obtain ⟨h3, h4⟩ := hb v (List.of_mem_zip hp).2
      exact ⟨x, v, rfl, h3, h4, hr _ hp⟩

/-- A rating outside [0,1] adds the point without a label. -/
theorem runInv_rejected {T : (Fin d → ℝ) → (Fin d → ℝ) → Prop} {Q : (Fin d → ℝ) → ℝ → Prop} {pareto : Bool} {st : ModelState d ℝ ℝ}
    (h : RunInv T Q st) (X : List (Fin d → ℝ)) (inp : AddInput ℝ) {e : PyErr}
    (he : addLabels st.y (st.X.getD []).length inp = .error e) :
    RunInv T Q (modelAdd pareto st X inp).1 := by
  have hm : (modelAdd pareto st X inp).1 = { st with X := some (st.X.getD [] ++ X) } := by
    unfold modelAdd
    simp only [he]
  have hget : ∀ {n : Nat}, n < (st.X.getD []).length → (st.X.getD [] ++ X)[n]? = (st.X.getD [])[n]? :=
    fun hn => List.getElem?_append_left hn
  obtain ⟨r1, r2, r3⟩ := h.range
  have hp : (decode { st with X := some (st.X.getD [] ++ X) }).prefs = (decode st).prefs := by
    simp only [decode, Option.getD_some]
    apply List.map_congr_left
    intro p hp
    have := r1 p hp
    have hw : winner p < (st.X.getD []).length := by unfold winner; split <;> omega
    have hl : loser p < (st.X.getD []).length := by unfold loser; split <;> omega
    rw [hget hw, hget hl]
  have hr : (decode { st with X := some (st.X.getD [] ++ X) }).rates = (decode st).rates := by
    simp only [decode, Option.getD_some]
    apply List.map_congr_left
    intro p hp
    rw [hget (r3 p hp)]
  rw [hm]
  refine ⟨⟨fun p hp => ?_, fun p hp => ?_, fun p hp => ?_⟩, ?_, ?_, h.first⟩
  · have := r1 p hp; simp only [Option.getD_some, List.length_append]; omega
  · have := r2 p hp; simp only [Option.getD_some, List.length_append]; omega
  · have := r3 p hp; simp only [Option.getD_some, List.length_append]; omega
  · rw [hp]; exact h.truth
  · rw [hr]; exact h.rated

theorem runInv_remove {T : (Fin d → ℝ) → (Fin d → ℝ) → Prop} {Q : (Fin d → ℝ) → ℝ → Prop} {st : ModelState d ℝ ℝ}
    (h : RunInv T Q st) (ho : st.y.ord = none) (ha : st.y.abs = none) :
    RunInv T Q (removeUnreferenced st).1 := by
  cases hX : st.X with
  | none =>
    have : (removeUnreferenced st).1 = st := by unfold removeUnreferenced; simp only [hX]
    rw [this]; exact h
  | some X =>
    cases hps : st.y.rel with
    | none =>
      have : (removeUnreferenced st).1 = st := by unfold removeUnreferenced; simp only [hX, hps]
      rw [this]; exact h
    | some ps =>
      obtain ⟨_, h2, _, h4, _⟩ := C19_pairs_keep_meaning_partial st h.range X ps hX hps
      obtain ⟨h5, _, h6⟩ := h4 ho ha
      refine ⟨h5, ?_, ?_, ?_⟩
      · rw [h2]; exact h.truth
      · rw [h6]; simp
      · have h0 := h.first
        unfold removeUnreferenced
        simp only [hX, hps]
        unfold FirstWins at h0
        rw [hps] at h0
        split
        · unfold FirstWins; rw [hps]; exact h0
        · split
          all_goals
            intro p hp
            simp only [Option.getD_some, List.mem_map] at hp
            obtain ⟨p', hp', rfl⟩ := hp
            exact h0 p' hp'

theorem modelAdd_pairs_labels (pareto : Bool) (st : ModelState d ℝ ℝ) (X : List (Fin d → ℝ)) (ps : List Pair) :
    (modelAdd pareto st X (.pairs ps)).1.y.ord = st.y.ord ∧ (modelAdd pareto st X (.pairs ps)).1.y.abs = st.y.abs := by
  unfold modelAdd addLabels
  simp only
  split_ifs <;> simp

theorem absVec_rejected {st : ModelState d ℝ ℝ} {rs : List ℝ} (h : ¬ ∀ r ∈ rs, 0 ≤ r ∧ r ≤ 1) :
    addLabels st.y (st.X.getD []).length (.absVec rs) = .error .valueError := by
  push Not at h
  obtain ⟨r, hr, hv⟩ := h
  obtain ⟨n, hn, rfl⟩ := List.mem_iff_getElem.1 hr
  simp only [addLabels, addAbs]
  rw [if_pos]
  have hmem : (rs[n], n + (st.X.getD []).length) ∈ rs.zipIdx.map fun (a, i) => (a, i + (st.X.getD []).length) :=
    List.mem_map.2 ⟨(rs[n], n), by simp [List.mem_zipIdx_iff_getElem?], rfl⟩
  by_cases h0 : 0 ≤ rs[n]
  · exact .inr (List.any_eq_true.2 ⟨_, hmem, by simpa using hv h0⟩)
  · exact .inl (List.any_eq_true.2 ⟨_, hmem, by simpa using h0⟩)

theorem runInv_start {T : (Fin d → ℝ) → (Fin d → ℝ) → Prop} {Q : (Fin d → ℝ) → ℝ → Prop} {pareto : Bool} (hd : pareto = true → 0 < d)
    (hmono : pareto = true → ∀ x z : Fin d → ℝ, (∀ k, z k < x k) → T x z) (linear : Bool) (s : StartData d)
    (hQ : ∀ x v, s.absPoint = some (x, v) → Q x v) :
    RunInv T Q (startRun pareto linear s {}).1 := by
  have h0 : ∀ prior, RunInv T Q ({ prior := prior } : ModelState d ℝ ℝ) := fun prior =>
    ⟨by simp [InRange], by simp [decode], by simp [decode], by simp [FirstWins]⟩
  have hprior : ∀ pts, RunInv T Q (addPrior pareto ({} : ModelState d ℝ ℝ) pts).1 := by
    intro pts
    unfold addPrior
    split
    · exact h0 none
    · have h1 := runInv_pairs hd hmono (h0 (some (0, ((0 + pts.length : Nat) : Int)))) pts []
        (by simp) (by simp) (by simp)
      have h2 := modelAdd_pairs_labels pareto
        ({ prior := some (0, ((0 + pts.length : Nat) : Int)) } : ModelState d ℝ ℝ) pts []
      have h3 := runInv_remove h1 h2.1 h2.2
      simp only [Option.getD_none, List.length_nil]
      split
      · exact h1
      · exact h3
  have hst : RunInv T Q (startPrior pareto s {}).1 := by
    unfold startPrior
    split
    · exact hprior _
    · exact h0 none
  unfold startRun
  split
  · next he => rw [he] at hst; exact hst
  · next st he =>
    rw [he] at hst
    simp only at hst
    unfold startAbs
    split
    · exact hst
    · next x v hx =>
      split
      · exact hst
      · by_cases hv : 0 ≤ v ∧ v ≤ 1
        · exact runInv_abs hd hmono hst [x] [v] rfl (by simpa using hv) (by simpa using hQ x v hx)
        · exact runInv_rejected hst [x] _ (absVec_rejected (by simpa using hv))

theorem rateAll_ok {i : DataIn d} {q : List (Fin d → ℝ)} {rs : List ℝ} (h : rateAll i.rate q = .ok rs) :
    rs.length = q.length ∧ ∀ p ∈ List.zip q rs, i.rate p.1 = .ok p.2 := by
  induction q generalizing rs with
  | nil => simp [rateAll] at h; subst h; simp
  | cons x xs ih =>
    unfold rateAll at h
    split at h
    · cases h
    · next r hr =>
      split at h
      · cases h
      · next rs' h' =>
        injection h with h
        subst h
        obtain ⟨h1, h2⟩ := ih h'
        refine ⟨by simp [h1], ?_⟩
        simp only [List.zip_cons_cons, List.mem_cons, forall_eq_or_imp]
        exact ⟨hr, h2⟩

theorem choose_said {i : DataIn d} (hi : ∀ q b, i.choose q = .ok b → b < q.length) {q : List (Fin d → ℝ)} {pairs : List Pair}
    (h : choosePairs i.choose q = .ok pairs) :
    (∀ p ∈ pairs, p.u < q.length ∧ p.v < q.length) ∧ (∀ p ∈ pairs, p.dk = -1) ∧
      ∀ p ∈ pairs, ∃ w l, q[winner p]? = some w ∧ q[loser p]? = some l ∧
        ∃ b, i.choose q = .ok b ∧ q[b]? = some w ∧ l ∈ q.eraseIdx b := by
  obtain ⟨b, hb, rfl⟩ := choosePairs_ok h
  have hbl := hi q b hb
  have hdk := genPairs_dk b (List.range q.length)
  have hall : ∀ p ∈ genPairsFromIdx b (List.range q.length), winner p = b ∧ loser p ≠ b ∧ loser p < q.length := by
    intro p hp
    obtain ⟨h3, h4, h5⟩ := C02_gen_pairs_irrefl b _ p hp
    exact ⟨h3, h4, List.mem_range.1 h5⟩
  refine ⟨fun p hp => ?_, hdk, fun p hp => ?_⟩
  · obtain ⟨h3, _, h4⟩ := hall p hp
    have := hdk p hp
    simp only [winner, loser, this, if_true] at h3 h4
    exact ⟨h3 ▸ hbl, h4⟩
  · obtain ⟨h3, h4, h5⟩ := hall p hp
    refine ⟨q[b], q[loser p], by rw [h3, List.getElem?_eq_getElem hbl], List.getElem?_eq_getElem h5, b, hb,
      List.getElem?_eq_getElem hbl, ?_⟩
    have : (q[winner p]?, q[loser p]?) ∈ (genPairsFromIdx b (List.range q.length)).map fun p => (q[winner p]?, q[loser p]?) :=
      List.mem_map.2 ⟨p, hp, rfl⟩
    rw [genPairs_points, List.mem_map] at this
    obtain ⟨z, hz, he⟩ := this
    rw [List.getElem?_eq_getElem h5] at he
    simp only [Prod.mk.injEq, Option.some.injEq] at he
    rw [← he.2]
    exact hz

theorem runInv_run {T : (Fin d → ℝ) → (Fin d → ℝ) → Prop} {Q : (Fin d → ℝ) → ℝ → Prop} {pareto : Bool}
    (hd : pareto = true → 0 < d)
    (hmono : pareto = true → ∀ x z : Fin d → ℝ, (∀ k, z k < x k) → T x z) (selType : String) (perfect linear : Bool)
    (s : StartData d) (hQ : ∀ x v, s.absPoint = some (x, v) → Q x v) (eval0 : Except PyErr Unit) (steps : List (DataIn d))
    (hi : ∀ i ∈ steps, ∀ q b, i.choose q = .ok b → b < q.length)
    (hT : ∀ i ∈ steps, ∀ q b, Shown i q → i.choose q = .ok b → ∀ w l, q[b]? = some w → l ∈ q.eraseIdx b → T w l)
    (hR : ∀ i ∈ steps, ∀ x v, Offered i x → i.rate x = .ok v → Q x v) :
    RunInv T Q (dataRun selType perfect pareto linear s eval0 steps).1 := by
  have h := runInv_start hd hmono linear s hQ
  unfold dataRun
  split
  · next he => rw [he] at h; exact h
  · next he =>
    rw [he] at h
    split
    · exact h
    · refine dataLoop_inv (fun i hm q pairs st hs hp hst => ?_) (fun q st hst => ?_) (fun i hm q rs st ho hr hst => ?_) h
      · obtain ⟨h1, h2, h3⟩ := choose_said (hi i hm) hp
        refine runInv_pairs hd hmono hst q pairs h1 h2 fun p hp => ?_
        obtain ⟨w, l, hw, hl, b, hb, hbw, hbl⟩ := h3 p hp
        exact ⟨w, l, hw, hl, hT i hm q b hs hb w l hbw hbl⟩
      · exact runInv_pairs hd hmono hst q [] (by simp) (by simp) (by simp)
      · obtain ⟨h1, h2⟩ := rateAll_ok hr
        by_cases hb : ∀ r ∈ rs, 0 ≤ r ∧ r ≤ 1
        · exact runInv_abs hd hmono hst q rs h1 hb fun p hp => hR i hm _ _ (ho _ (List.of_mem_zip hp).1) (h2 p hp)
        · exact runInv_rejected hst q _ (absVec_rejected hb)

end Lop
