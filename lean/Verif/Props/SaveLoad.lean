import Verif.Spec.SaveLoad
import Mathlib.Data.Rat.Floor
import Mathlib.Tactic.IntervalCases

/-! # C112, C113: recorded training steps, and loading them again -/

namespace Lop.Props

open Lop Lop.Spec

variable {d : Nat} {α : Type*} [LinearOrder α] {R : Type*} [Field R] [LinearOrder R]

theorem load_abs [IsStrictOrderedRing R] [FloorRing R] (l : List (R × Nat)) :
    (l.map fun r => (r.1, (r.2 : R))).map (fun r => (r.1, ⌊r.2⌋.toNat)) = l := by
  rw [List.map_map]
  conv_rhs => rw [← List.map_id l]
  apply List.map_congr_left
  intro r _
  simp

/-- On a model that was never loaded, the operations with 0-dimensional attributes in mind are those of the other claims. -/
theorem C112_ordinary (pareto : Bool) (st : ModelState d α R) (X : List (Fin d → α)) (y : AddInput R) :
    pyAdd pareto (PyModel.ofState st) X y = (PyModel.ofState (modelAdd pareto st X y).1, (modelAdd pareto st X y).2) ∧
    pyPredict (PyModel.ofState st) = (PyModel.ofState (modelPredict st).1, .ok (modelPredict st).2) ∧
    pyPriorPts (PyModel.ofState st) = getPriorPts st := by
  obtain ⟨X0, y0, p, o, f⟩ := st
  refine ⟨?_, ?_, ?_⟩
  · have key : ∀ p : Option (Nat × Int), modelAdd pareto ⟨X0, y0, p, o, f⟩ X y =
        ({ (modelAdd pareto ⟨X0, y0, none, o, f⟩ X y).1 with prior := p }, (modelAdd pareto ⟨X0, y0, none, o, f⟩ X y).2) := by
      intro p
      simp only [modelAdd]
      rcases h : addLabels y0 (X0.getD []).length y with e | _ | y' <;> simp
    rw [key p]
    cases X0 <;> rfl
  · cases X0 with
    | none => rfl
    | some X0 => cases o <;> rfl
  · cases p with
    | none => rfl
    | some w => cases X0 <;> rfl

/-- Two models that differ at most in the prior window look the same. -/
theorem seen_same (pareto : Bool) (us : List (Use d α R)) : ∀ m m' : PyModel d α R,
    m.X = m'.X → m.y = m'.y → m.optimized = m'.optimized → m.fitted = m'.fitted → seen pareto m us = seen pareto m' us := by
  induction us with
  | nil => intros; rfl
  | cons u us ih =>
    rintro ⟨X, y, p, o, f⟩ ⟨X', y', p', o', f'⟩ h1 h2 h3 h4
    simp only at h1 h2 h3 h4
    subst h1 h2 h3 h4
    cases u with
    | add Z z =>
      simp only [seen]
      congr 1
      · cases X <;> rfl
      · apply ih <;> cases X <;> rfl
    | predict =>
      simp only [seen]
      congr 1
      · cases X <;> rfl
      · apply ih <;> cases X <;> rfl

/-- A model loaded from a recorded step has the recorded points, comparisons and ratings — the indices of the ratings, which
are saved as floats, come back exactly — and its next prediction fits the mode anew. -/
theorem C112_data [IsStrictOrderedRing R] [FloorRing R] (st : ModelState d α R) (m : PyModel d α R)
    (X : List (Fin d → α)) (hX : st.X = some X) :
    (modelLoad m (recordState st)).X = .arr X ∧
    (modelLoad m (recordState st)).y.rel = st.y.rel ∧
    (modelLoad m (recordState st)).y.abs = st.y.abs ∧
    (modelLoad m (recordState st)).optimized = false ∧
    (∀ w, st.prior = some w → (modelLoad m (recordState st)).prior = .arr w) := by
  refine ⟨by simp [modelLoad, recordState, hX, Attr.stored], ?_, ?_, rfl, ?_⟩
  · cases h : st.y.rel <;> simp [modelLoad, recordState, h, Attr.stored]
  · cases h : st.y.abs with
    | none => simp [modelLoad, recordState, h, Attr.stored]
    | some l =>
      simp only [modelLoad, recordState, h, Attr.stored, Option.map_some]
      rw [load_abs]
  · intro w hw
    simp [modelLoad, recordState, hw, Attr.stored]

/-- A recorded step can be continued: the first prediction of the loaded model is computed from the same data as that of the
recorded model, and so is everything that is seen afterwards, whatever is added and predicted. -/
theorem C112_continue [IsStrictOrderedRing R] [FloorRing R] (pareto : Bool) (st : ModelState d α R) (m : PyModel d α R)
    (hX : st.X ≠ none) (ho : st.y.ord = none) (hf : StoredFitCurrent st) (us : List (Use d α R)) :
    seen pareto (modelLoad m (recordState st)) (.predict :: us) = seen pareto (PyModel.ofState st) (.predict :: us) := by
  obtain ⟨X, hX⟩ := Option.ne_none_iff_exists'.1 hX
  obtain ⟨h1, h2, h3, h4, -⟩ := C112_data st m X hX
  have hy : (modelLoad m (recordState st)).y = st.y := by
    have h5 : (modelLoad m (recordState st)).y.ord = st.y.ord := by rw [ho]; rfl
    cases hh : (modelLoad m (recordState st)).y
    cases hh' : st.y
    rw [hh] at h2 h3 h5
    rw [hh'] at h2 h3 h5
    simp_all
  have hfit : (pyPredict (modelLoad m (recordState st))).2 = .ok (some (some (X, st.y))) ∧
      (pyPredict (modelLoad m (recordState st))).1.optimized = true ∧
      (pyPredict (modelLoad m (recordState st))).1.fitted = some (X, st.y) ∧
      (pyPredict (modelLoad m (recordState st))).1.X = .arr X ∧
      (pyPredict (modelLoad m (recordState st))).1.y = st.y := by
    simp [pyPredict, h1, h4, hy, modelPredict, modelOptimize]
  have hfit' : (pyPredict (PyModel.ofState st)).2 = .ok (some (some (X, st.y))) ∧
      (pyPredict (PyModel.ofState st)).1.optimized = true ∧
      (pyPredict (PyModel.ofState st)).1.fitted = some (X, st.y) ∧
      (pyPredict (PyModel.ofState st)).1.X = .arr X ∧
      (pyPredict (PyModel.ofState st)).1.y = st.y := by
    by_cases h : st.optimized = true
    · obtain ⟨X', hX', hf⟩ := hf h
      rw [hX] at hX'
      cases hX'
      simp [pyPredict, PyModel.ofState, hX, Attr.ofOption, h, hf, modelPredict]
    · simp [pyPredict, PyModel.ofState, hX, Attr.ofOption, h, modelPredict, modelOptimize]
  simp only [seen]
  congr 1
  · rw [hfit.1, hfit'.1]
  · exact seen_same pareto us _ _ (by rw [hfit.2.2.2.1, hfit'.2.2.2.1]) (by rw [hfit.2.2.2.2, hfit'.2.2.2.2])
      (by rw [hfit.2.1, hfit'.2.1]) (by rw [hfit.2.2.1, hfit'.2.2.1])

/-- Exactly the steps recorded with training points and without ordinal ratings can be continued: in every other case already
the first prediction of the loaded model differs. -/
theorem C112_exact [IsStrictOrderedRing R] [FloorRing R] (st : ModelState d α R) (m : PyModel d α R) (hf : StoredFitCurrent st) :
    (pyPredict (modelLoad m (recordState st))).2 = (pyPredict (PyModel.ofState st)).2 ↔ st.X ≠ none ∧ st.y.ord = none := by
  constructor
  · intro h
    have hX : st.X ≠ none := by
      intro hX
      simp [pyPredict, modelLoad, recordState, hX, Attr.stored, PyModel.ofState, Attr.ofOption] at h
    refine ⟨hX, ?_⟩
    obtain ⟨X, hX⟩ := Option.ne_none_iff_exists'.1 hX
    have h1 : (pyPredict (PyModel.ofState st)).2 = .ok (some (some (X, st.y))) := by
      by_cases ho : st.optimized = true
      · obtain ⟨X', hX', hf⟩ := hf ho
        rw [hX] at hX'
        cases hX'
        simp [pyPredict, PyModel.ofState, hX, Attr.ofOption, ho, hf, modelPredict]
      · simp [pyPredict, PyModel.ofState, hX, Attr.ofOption, ho, modelPredict, modelOptimize]
    have h2 : (pyPredict (modelLoad m (recordState st))).2 =
        .ok (some (some (X, (modelLoad m (recordState st)).y))) := by
      have hx : (modelLoad m (recordState st)).X = .arr X := by simp [modelLoad, recordState, hX, Attr.stored]
      have ho : (modelLoad m (recordState st)).optimized = false := rfl
      simp [pyPredict, hx, ho, modelPredict, modelOptimize]
    rw [h1, h2] at h
    simp only [Except.ok.injEq, Option.some.injEq, Prod.mk.injEq, true_and] at h
    rw [← h]
    rfl
  · rintro ⟨hX, ho⟩
    have := C112_continue false st m hX ho hf []
    simpa [seen] using this

/-- Is everything the same on a loaded model?  No: a step recorded before any training data, or without prior points, comes
back with attributes that are 0-dimensional arrays.  Without training points both `add` and `predict` raise, where the recorded
model accepts the data and predicts from its prior; without prior points `get_prior_pts` raises `IndexError` where the recorded
model returns `None`. -/
theorem C112_none_false [IsStrictOrderedRing R] [FloorRing R] (pareto : Bool) (st : ModelState d α R) (m : PyModel d α R) :
    (st.X = none → (∀ X y, pyAdd pareto (modelLoad m (recordState st)) X y = (modelLoad m (recordState st), some .typeError)) ∧
      (∃ e, (pyPredict (modelLoad m (recordState st))).2 = .error e) ∧ (pyPredict (PyModel.ofState st)).2 = .ok none) ∧
    (st.prior = none → pyPriorPts (modelLoad m (recordState st)) = .error .indexError ∧
      pyPriorPts (PyModel.ofState st) = .ok none) := by
  refine ⟨fun h => ⟨fun X y => ?_, ?_, ?_⟩, fun h => ⟨?_, ?_⟩⟩
  · simp [pyAdd, modelLoad, recordState, h, Attr.stored]
  · exact ⟨.typeError, by simp [pyPredict, modelLoad, recordState, h, Attr.stored]⟩
  · simp [pyPredict, PyModel.ofState, h, Attr.ofOption, modelPredict]
  · simp [pyPriorPts, modelLoad, recordState, h, Attr.stored]
  · simp [pyPriorPts, PyModel.ofState, h, Attr.ofOption]

/-- The ordinal ratings are recorded but never read back: two models that differ only in them become the same. -/
theorem C112_ordinals_false [FloorRing R] (st : ModelState d α R) (m : PyModel d α R) (o : Option (List (Int × Nat))) :
    modelLoad m (recordState st) = modelLoad m (recordState { st with y := { st.y with ord := o } }) ∧
    (recordState { st with y := { st.y with ord := o } }).pref1 = .stored o := ⟨rfl, rfl⟩

/-- The hypotheses are met: a model with two points, a comparison and a rating, fitted to them. -/
example : ∃ st : ModelState 1 ℚ ℚ, st.X ≠ none ∧ st.y.ord = none ∧ StoredFitCurrent st ∧ st.optimized = true ∧
    st.y.rel ≠ none ∧ st.y.abs ≠ none :=
  ⟨{ X := some [fun _ => 0, fun _ => 1], y := { rel := some [⟨-1, 0, 1⟩], abs := some [(1 / 2, 1)] }, optimized := true,
     fitted := some ([fun _ => 0, fun _ => 1], { rel := some [⟨-1, 0, 1⟩], abs := some [(1 / 2, 1)] }) },
    by simp, rfl, fun _ => ⟨_, rfl, rfl⟩, rfl, by simp, by simp⟩

/-! ## C113 -/

/-- The folder in which the experiments record, as the scripts see it. -/
theorem folderStamp_recorded (stem date run step : List Char) (hs : '/' ∉ stem) (hd : '/' ∉ date) (hl : date.length = 19) :
    folderStamp (recordedName ("../../../experiments/results/".toList ++ stem) date run step) = .ok date := by
  have h1 : ∃ rest, recordedName ("../../../experiments/results/".toList ++ stem) date run step =
      ['.', '.'] ++ '/' :: (['.', '.'] ++ '/' :: (['.', '.'] ++ '/' :: ("experiments".toList ++ '/' :: ("results".toList ++
        '/' :: ((stem ++ date) ++ '/' :: rest))))) := by
    refine ⟨"run_".toList ++ run ++ "/trainitr_".toList ++ step ++ "_viz.npz".toList, ?_⟩
    simp [recordedName]
  obtain ⟨rest, h1⟩ := h1
  have h2 : (stem ++ date).splitOn '/' = [stem ++ date] := by
    rw [List.splitOn_eq_splitOnP]
    apply List.splitOnP_eq_singleton
    intro c hc
    simp only [beq_eq_false_iff_ne]
    rintro rfl
    simp only [List.mem_append] at hc
    tauto
  have h3 : ['.', '.'].splitOn '/' = [['.', '.']] := by decide
  have h4 : "experiments".toList.splitOn '/' = ["experiments".toList] := by decide
  have h5 : "results".toList.splitOn '/' = ["results".toList] := by decide
  rw [folderStamp, h1]
  simp only [List.splitOn_append_cons_self, h2, h3, h4, h5]
  simp [hl]

theorem filterRaise_map {β γ : Type} (test : β → Except PyErr Bool) (f : γ → β) (keep : γ → Bool) : ∀ ns : List γ,
    (∀ n ∈ ns, test (f n) = .ok (keep n)) → filterRaise test (ns.map f) = .ok ((ns.filter keep).map f)
  | [], _ => rfl
  | n :: ns, h => by
    have ih := filterRaise_map test f keep ns fun k hk => h k (List.mem_cons_of_mem _ hk)
    simp only [List.map_cons, filterRaise, h n List.mem_cons_self, ih]
    by_cases hk : keep n <;> simp [hk, bind, Except.bind, pure, Except.pure]

/-- With both limits, `filter_by_time` keeps exactly the recorded steps of runs begun strictly between them. -/
theorem C113_between {D : Type} [LinearOrder D] (strptime : List Char → Option D) (recs : List Recorded)
    (time : Recorded → D) (a b : List Char) (ta tb : D) (ha : strptime a = some ta) (hb : strptime b = some tb)
    (hn : ∀ r ∈ recs, r.Valid ∧ strptime r.date = some (time r)) :
    filterByTime strptime (recs.map Recorded.path) (some a) (some b) =
      .ok ((recs.filter fun r => ta < time r ∧ time r < tb).map Recorded.path) := by
  simp only [filterByTime, parseTime, ha, hb]
  simp only [bind, Except.bind]
  apply filterRaise_map
  intro r hr
  obtain ⟨⟨h1, h2, h3⟩, h4⟩ := hn r hr
  rw [show folderStamp r.path = .ok r.date from folderStamp_recorded _ _ _ _ h1 h2 h3]
  simp only [h4, pure, Except.pure, gt_iff_lt, Bool.decide_and]

/-- Character 16 from the end of a recorded path is one of the letters of `trainitr`. -/
theorem tailStamp_letter (r : Recorded) (hk : r.step.length ≤ 6) :
    ∃ c ∈ tailStamp r.path, c ∈ "trainitr".toList := by
  obtain ⟨A, hA⟩ : ∃ A, r.path = A ++ ("trainitr_".toList ++ r.step ++ "_viz.npz".toList) :=
    ⟨"../../../experiments/results/".toList ++ r.stem ++ r.date ++ "/run_".toList ++ r.run ++ ['/'], by
      simp [Recorded.path, recordedName]⟩
  have hlen : r.path.length = A.length + (17 + r.step.length) := by
    rw [hA]
    simp
    omega
  have hi : r.path[r.path.length - 16]? = "trainitr".toList[r.step.length + 1]? := by
    rw [hlen, hA, List.getElem?_append_right (by omega)]
    have e : A.length + (17 + r.step.length) - 16 - A.length = r.step.length + 1 := by omega
    rw [e, List.append_assoc, List.getElem?_append_left (by simp; omega)]
    generalize hg : r.step.length = k at *
    interval_cases k <;> rfl
  have hlt : r.step.length + 1 < "trainitr".toList.length := by simp; omega
  refine ⟨"trainitr".toList[r.step.length + 1], ?_, List.getElem_mem hlt⟩
  rw [List.getElem?_eq_getElem hlt] at hi
  rw [tailStamp]
  apply List.mem_of_getElem? (i := r.path.length - 16 - (r.path.length - 34))
  rw [List.getElem?_drop, List.getElem?_take_of_lt (by omega), ← hi]
  congr 1
  omega

/-- With only one of the limits, `filter_by_time` looks for the date at the wrong place of the name: as soon as one recorded
step has been found it raises `ValueError`, whichever the date. -/
theorem C113_one_limit_false {D : Type} [LinearOrder D] (strptime : List Char → Option D) (hs : DateChars strptime)
    (r : Recorded) (names : List (List Char)) (hk : r.step.length ≤ 6) (a : List Char) (t : D) (ha : strptime a = some t) :
    filterByTime strptime (r.path :: names) (some a) none = .error .valueError ∧
    filterByTime strptime (r.path :: names) none (some a) = .error .valueError := by
  have h : strptime (tailStamp r.path) = none := by
    cases h : strptime (tailStamp r.path) with
    | none => rfl
    | some t =>
      obtain ⟨c, hc, hl⟩ := tailStamp_letter r hk
      have hd := hs _ _ h c hc
      have : ∀ c ∈ "trainitr".toList, ¬(c.isDigit ∨ c = '-' ∨ c = '_') := by decide
      exact absurd hd (this c hl)
  constructor <;> simp [filterByTime, parseTime, ha, filterRaise, h, bind, Except.bind]

theorem tailStamp_at (pre date rest : List Char) (hd : date.length = 19) (hr : rest.length = 15) :
    tailStamp (pre ++ date ++ rest) = date := by
  have h1 : (pre ++ date ++ rest).length - 15 = (pre ++ date).length := by simp; omega
  have h2 : (pre ++ date ++ rest).length - 34 = pre.length := by simp; omega
  rw [tailStamp, h1, h2, List.take_left, List.drop_left]

/-- With one limit it does filter names in which the date is followed by exactly fifteen characters; without limits it returns
everything. -/
theorem C113_one_limit {D : Type} [LinearOrder D] (strptime : List Char → Option D)
    (files : List (List Char × List Char × List Char)) (time : List Char → D)
    (hf : ∀ f ∈ files, f.2.1.length = 19 ∧ f.2.2.length = 15 ∧ strptime f.2.1 = some (time f.2.1))
    (a : List Char) (t : D) (ha : strptime a = some t) :
    filterByTime strptime (files.map fun f => f.1 ++ f.2.1 ++ f.2.2) (some a) none =
      .ok ((files.filter fun f => t < time f.2.1).map fun f => f.1 ++ f.2.1 ++ f.2.2) ∧
    filterByTime strptime (files.map fun f => f.1 ++ f.2.1 ++ f.2.2) none (some a) =
      .ok ((files.filter fun f => time f.2.1 < t).map fun f => f.1 ++ f.2.1 ++ f.2.2) ∧
    ∀ names, filterByTime strptime names none none = .ok names := by
  refine ⟨?_, ?_, fun names => rfl⟩
  all_goals
    simp only [filterByTime, parseTime, ha]
    simp only [bind, Except.bind]
    apply filterRaise_map
    intro f hmem
    obtain ⟨h1, h2, h3⟩ := hf f hmem
    simp only [tailStamp_at _ _ _ h1 h2, h3, pure, Except.pure, gt_iff_lt]

/-- A limit that is not a date is refused, whatever the names. -/
theorem C113_refused {D : Type} [LinearOrder D] (strptime : List Char → Option D) (names : List (List Char)) (a : List Char)
    (ha : strptime a = none) (b : Option (List Char)) :
    filterByTime strptime names (some a) b = .error .valueError ∧
    filterByTime strptime names none (some a) = .error .valueError ∧
    (∀ c t, strptime c = some t → filterByTime strptime names (some c) (some a) = .error .valueError) := by
  refine ⟨?_, ?_, ?_⟩
  · cases b <;> simp [filterByTime, parseTime, ha, bind, Except.bind]
  · simp [filterByTime, parseTime, ha, bind, Except.bind]
  · intro c t hc
    simp [filterByTime, parseTime, ha, hc, bind, Except.bind]

/-- `get_filepath` looks among the runs of its year; it returns all of them for `idx = -1`, otherwise the first one. -/
theorem C113_path {D : Type} [LinearOrder D] (strptime : List Char → Option D) (recs : List Recorded)
    (time : Recorded → D) (ta tb : D) (ha : strptime "2024-10-28_00-00-00".toList = some ta)
    (hb : strptime "2025-10-22_00-00-00".toList = some tb)
    (hn : ∀ r ∈ recs, r.Valid ∧ strptime r.date = some (time r)) (idx : Int) :
    getFilepath strptime (recs.map Recorded.path) idx =
      if idx = -1 then .ok (.all ((recs.filter fun r => ta < time r ∧ time r < tb).map Recorded.path))
      else match recs.find? fun r => decide (ta < time r ∧ time r < tb) with
        | none => .error .indexError
        | some r => .ok (.one r.path) := by
  rw [getFilepath, C113_between strptime recs time _ _ ta tb ha hb hn]
  by_cases hi : idx = -1
  · simp [hi, bind, Except.bind, pure, Except.pure]
  · simp only [hi, bind, Except.bind, pure, Except.pure, if_false]
    cases hf : recs.filter (fun r => decide (ta < time r ∧ time r < tb)) with
    | nil =>
      have : recs.find? (fun r => decide (ta < time r ∧ time r < tb)) = none := by
        rw [← List.head?_filter, hf]; rfl
      rw [this]
      rfl
    | cons r rs =>
      have : recs.find? (fun r => decide (ta < time r ∧ time r < tb)) = some r := by
        rw [← List.head?_filter, hf]; rfl
      rw [this]
      rfl

/-- The argument `idx` does not choose among several files: with two matching runs `idx = 1` returns the first one. -/
theorem C113_index_false {D : Type} [LinearOrder D] (strptime : List Char → Option D) (found : List (List Char))
    (i j : Int) (hi : i ≠ -1) (hj : j ≠ -1) : getFilepath strptime found i = getFilepath strptime found j := by
  simp [getFilepath, hi, hj]

/-- A date as nineteen characters, compared as text; enough for an example. -/
def toyTime (s : List Char) : Option Nat :=
  if s.length = 19 ∧ ∀ c ∈ s, c.isDigit ∨ c = '-' ∨ c = '_' then
    some ((s.filter Char.isDigit).foldl (fun n c => 10 * n + (c.toNat - 48)) 0) else none

/-- The hypotheses are met: two runs of one name in the year, one before it. -/
example : DateChars toyTime ∧ (∀ r ∈ [(⟨"AT_UCB_".toList, "2024-11-02_10-20-30".toList, "3".toList, "15".toList⟩ : Recorded),
      ⟨"AT_UCB_".toList, "2023-11-02_10-20-30".toList, "3".toList, "15".toList⟩],
        r.Valid ∧ (toyTime r.date).isSome ∧ r.step.length ≤ 6) ∧
    (toyTime "2024-10-28_00-00-00".toList).isSome ∧ (toyTime "2025-10-22_00-00-00".toList).isSome := by
  refine ⟨?_, ?_, ?_, ?_⟩
  · intro s t h
    unfold toyTime at h
    split at h
    · next hh => exact hh.2
    · cases h
  · simp only [Recorded.Valid]
    decide +kernel
  · decide +kernel
  · decide +kernel

end Lop.Props
