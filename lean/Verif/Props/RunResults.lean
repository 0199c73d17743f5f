import Verif.Proofs.RunResults

/-! # C107 and C108: what an experiment leaves behind, and what it trains on -/

namespace Lop.Props

open Lop Lop.Spec

variable {V : Type*}

/-- C107, without an interrupt: after any number of completed runs the file holds their results in order, one row each, in every
array; there is no file before the first run is completed. It is the same whether the runs end there or the next one raises.
Missing: an interrupted run (`C107_interrupt_exact`). -/
theorem C107_results_partial (junk : ResKey → List V) (rs : List (ResKey → V)) (rest : List (RunEnd V)) (e : PyErr)
    (h : ∀ key, rs.length ≤ (junk key).length) :
    (mainRuns junk (rs.map .done)).2 = .finished ∧
    (mainRuns junk (rs.map .done ++ .raised e :: rest)).2 = .raised e ∧
    (mainRuns junk (rs.map .done ++ .raised e :: rest)).1 = (mainRuns junk (rs.map .done)).1 ∧
    (rs = [] → (mainRuns junk (rs.map .done)).1 = none) ∧
    (rs ≠ [] → (mainRuns junk (rs.map .done)).1 = some fun key => rs.map fun r => r key) := by
  have h1 := mainRuns_done junk rs [] h
  have h2 := mainRuns_done junk rs (.raised e :: rest) h
  rw [List.append_nil] at h1
  rw [h1, h2]
  simp only [runsLoop]
  refine ⟨trivial, trivial, trivial, fun hr => by simp [fileOf, hr], fun hr => by simp [fileOf, hr]⟩

/-- C107, exact behaviour of an interrupt in run number `rs.length` after `k` of its arrays were written: the file gets one row
more than there are completed runs; in the arrays not yet written that row is what `np.empty` happened to contain. -/
theorem C107_interrupt_exact (junk : ResKey → List V) (rs : List (ResKey → V)) (r : ResKey → V) (k : Nat) (rest : List (RunEnd V))
    (h : ∀ key, rs.length < (junk key).length) :
    ∃ file, mainRuns junk (rs.map .done ++ .interrupted r k :: rest) = (some file, .exit) ∧
      ∀ key, file key = rs.map (fun q => q key) ++
        [if key ∈ assignOrder.take k then r key else (junk key)[rs.length]'(h key)] := by
  have h2 := mainRuns_done junk rs (.interrupted r k :: rest) (fun key => (h key).le)
  refine ⟨_, by rw [h2, runsLoop], fun key => ?_⟩
  unfold saveFirst writeRun
  have hl : (rs.map fun q => q key).length = rs.length := by simp
  split
  · unfold arrAfter
    have := set_append_drop (rs.map fun q => q key) (junk key) (r key) (by simpa using h key)
    simp only [hl] at this
    rw [this, List.take_append_of_le_length (by simp), List.take_of_length_le (by simp)]
  · unfold arrAfter
    rw [List.drop_eq_getElem_cons (h key)]
    have : (rs.map fun q => q key) ++ (junk key)[rs.length]'(h key) :: (junk key).drop (rs.length + 1)
        = ((rs.map fun q => q key) ++ [(junk key)[rs.length]'(h key)]) ++ (junk key).drop (rs.length + 1) := by simp
    rw [this, List.take_append_of_le_length (by simp), List.take_of_length_le (by simp)]

/-- C107 fails for an interrupted experiment: whatever value a reader may find, there is an outcome of `np.empty` for which the saved
accuracies end with it although no run produced it, and there is always one row more than completed runs. -/
theorem C107_interrupt_false (rs : List (ResKey → V)) (r : ResKey → V) (rest : List (RunEnd V)) (v : V) :
    ∃ junk : ResKey → List V, ∃ file, (∀ key, (junk key).length = rs.length + 1 + rest.length) ∧
      mainRuns junk (rs.map .done ++ .interrupted r 0 :: rest) = (some file, .exit) ∧
      ∀ key, (file key).length = rs.length + 1 ∧ (file key).getLast? = some v := by
  have hl : ∀ key : ResKey, rs.length < ((fun _ => List.replicate (rs.length + 1 + rest.length) v : ResKey → List V) key).length := by
    intro key; simp; omega
  obtain ⟨file, h1, h2⟩ := C107_interrupt_exact (fun _ => List.replicate (rs.length + 1 + rest.length) v) rs r 0 rest hl
  refine ⟨_, file, fun key => by simp, h1, fun key => ?_⟩
  rw [h2 key]
  simp

/-- Two runs, the second interrupted while training: the file has a second row with the contents of fresh memory. -/
example : ((mainRuns (fun _ => [7, 8, 9]) [.done fun _ => 1, .interrupted (fun _ => 2) 0, .done fun _ => 3]).1.map
    fun f => f .ranks) = some [1, 8] := by decide

/-- Three completed runs. -/
example : ((mainRuns (fun _ => [7, 8, 9]) [.done fun _ => 1, .done fun _ => 2, .done fun _ => 3]).1.map
    fun f => f .rhos) = some [1, 2, 3] := by decide

/-- An interrupt while writing: the accuracies are there, the regrets are not. -/
example : ((mainRuns (fun _ => [7, 8]) [.interrupted (fun _ => 2) 3]).1.map
    fun f => (f .avgCorrect, f .scoreDiff)) = some ([2], [7]) := by decide

variable {P S ρ : Type*}

/-- C108: a completed run has trained once on each of the first `num_train` problems of its environment, of which there are at
least so many, in some order; it has recorded a row before the first pass and one after every pass, each the figures of the
evaluation at that time, written into as many columns as the first environment has evaluation problems. -/
theorem C108_each_once (step : P → S → Except PyErr S) (evalF : List P → S → Except PyErr (List ρ)) (train evals : List (List P))
    (env numTrain numEval : Nat) (draw : List Nat) (s s' : S) (rows : List (List ρ))
    (hdraw : ∀ tr, train[env]? = some tr → DrawOf draw (tr.take numTrain).length numTrain)
    (h : runProblems step evalF train evals env numTrain numEval draw s = .ok (s', rows)) :
    ∃ tr ev first, train[env]? = some tr ∧ evals[env]? = some ev ∧ evals[0]? = some first ∧ numTrain ≤ tr.length ∧
      ∃ ps : List P, List.Perm ps (tr.take numTrain) ∧ passes step ps s = .ok s' ∧ rows.length = numTrain + 1 ∧
        ∀ (k : Nat) row, rows[k]? = some row → ∃ sk r, passes step (ps.take k) s = .ok sk ∧
          evalF (ev.take numEval) sk = .ok r ∧ storeFigures (first.take numEval).length r = .ok row := by
  unfold runProblems at h
  simp only [List.getElem?_map] at h
  cases hev : evals[env]? with
  | none => rw [hev] at h; cases h
  | some ev =>
    rw [hev] at h
    simp only [Option.map_some] at h
    cases hevt : ev.take numEval with
    | nil => rw [hevt] at h; cases h
    | cons q qs =>
      rw [hevt] at h
      cases hf : evals[0]? with
      | none => rw [hf] at h; cases h
      | some first =>
        rw [hf] at h
        simp only [Option.map_some] at h
        cases hr0 : evalF (q :: qs) s with
        | error e => rw [hr0] at h; cases h
        | ok r0 =>
          rw [hr0] at h
          simp only at h
          cases hw0 : storeFigures (first.take numEval).length r0 with
          | error e => rw [hw0] at h; cases h
          | ok w0 =>
            rw [hw0] at h
            simp only at h
            cases htr : train[env]? with
            | none => rw [htr] at h; cases h
            | some tr =>
              rw [htr] at h
              simp only [Option.map_some, choiceNoRepl] at h
              by_cases hlt : (tr.take numTrain).length < numTrain
              · rw [if_pos hlt] at h; cases h
              · rw [if_neg hlt] at h
                simp only at h
                cases hlp : problemLoop step (evalF (q :: qs)) (tr.take numTrain) (first.take numEval).length draw s with
                | error e => rw [hlp] at h; cases h
                | ok out =>
                  obtain ⟨s2, rws⟩ := out
                  rw [hlp] at h
                  cases h
                  obtain ⟨ps, e1, e2, e3, e4⟩ := problemLoop_ok draw s s' rws hlp
                  obtain ⟨d1, d2, d3⟩ := hdraw tr htr
                  have hlen : numTrain ≤ tr.length := by simp at hlt; omega
                  refine ⟨tr, ev, first, rfl, rfl, rfl, hlen, ps,
                    map_getElem?_perm _ draw ps d2 (by rw [d1]; simp; omega) d3 e1, e2, by simp [e3, d1], ?_⟩
                  intro k row hk
                  cases k with
                  | zero =>
                    simp only [List.getElem?_cons_zero, Option.some.injEq] at hk
                    subst hk
                    exact ⟨s, r0, by simp [passes], by rw [hevt]; exact hr0, hw0⟩
                  | succ k =>
                    simp only [List.getElem?_cons_succ] at hk
                    obtain ⟨sk, r, a, b, c⟩ := e4 k row hk
                    exact ⟨sk, r, a, by rw [hevt]; exact b, c⟩

/-- C108, what is written: figures of as many problems as there are columns are recorded as they are; figures of another number of
problems are refused, except those of a single problem, which are repeated in every column. -/
theorem C108_rows (w : Nat) (row : List ρ) :
    (row.length = w → storeFigures w row = .ok row) ∧
    (row.length ≠ w → row.length ≠ 1 → storeFigures w row = .error .valueError) ∧
    (∀ x, row = [x] → storeFigures w row = .ok (List.replicate w x)) := by
  refine ⟨fun h => by simp [storeFigures, h], fun h h1 => ?_, fun x hx => ?_⟩
  · unfold storeFigures
    rw [if_neg h]
    match row, h1 with
    | [], _ => rfl
    | [x], h1 => exact absurd rfl h1
    | _ :: _ :: _, _ => rfl
  · subst hx
    unfold storeFigures
    split
    · rename_i hw; simp at hw; subst hw; rfl
    · rfl

/-- C108, too few problems: with fewer than `num_train` training problems in the environment no run completes, and after a successful
evaluation of the untrained model it ends with `ValueError`. -/
theorem C108_too_few (step : P → S → Except PyErr S) (evalF : List P → S → Except PyErr (List ρ)) (train evals : List (List P))
    (env numTrain numEval : Nat) (draw : List Nat) (s : S) (tr ev first : List P) (row : List ρ)
    (htr : train[env]? = some tr) (hev : evals[env]? = some ev) (hf : evals[0]? = some first) (hne : ev.take numEval ≠ [])
    (heval : evalF (ev.take numEval) s = .ok row) (hrow : row.length = (first.take numEval).length) (hfew : tr.length < numTrain) :
    runProblems step evalF train evals env numTrain numEval draw s = .error .valueError := by
  unfold runProblems
  simp only [List.getElem?_map, hev, hf, htr, Option.map_some]
  obtain ⟨q, qs, hq⟩ := List.exists_cons_of_ne_nil hne
  rw [hq] at heval ⊢
  have hlt : (tr.take numTrain).length < numTrain := by simp; omega
  simp only [heval, (C108_rows _ row).1 hrow, choiceNoRepl, if_pos hlt]

/-- C108, completion: if the environment has at least `num_train` training problems and as many evaluation problems as the first
environment (cut at `num_eval`, at least one), the evaluation gives one figure per problem and no pass raises, the run completes. -/
theorem C108_completes (step : P → S → Except PyErr S) (evalF : List P → S → Except PyErr (List ρ)) (train evals : List (List P))
    (env numTrain numEval : Nat) (draw : List Nat) (s : S) (tr ev first : List P)
    (htr : train[env]? = some tr) (hev : evals[env]? = some ev) (hf : evals[0]? = some first) (hne : ev.take numEval ≠ [])
    (hdraw : DrawOf draw (tr.take numTrain).length numTrain) (hmany : numTrain ≤ tr.length)
    (hsame : (ev.take numEval).length = (first.take numEval).length)
    (hstep : ∀ p ∈ tr.take numTrain, ∀ s, ∃ s', step p s = .ok s')
    (heval : ∀ qs s, ∃ row, evalF qs s = .ok row ∧ row.length = qs.length) :
    ∃ out, runProblems step evalF train evals env numTrain numEval draw s = .ok out := by
  unfold runProblems
  simp only [List.getElem?_map, hev, hf, htr, Option.map_some]
  obtain ⟨q, qs, hq⟩ := List.exists_cons_of_ne_nil hne
  obtain ⟨row, h1, h2⟩ := heval (q :: qs) s
  have hw : (q :: qs).length = (first.take numEval).length := by rw [← hq]; exact hsame
  obtain ⟨⟨s2, rows⟩, h3⟩ := problemLoop_total (step := step) (evalF := evalF (q :: qs)) (probs := tr.take numTrain)
    (w := (first.take numEval).length) hstep
    (fun s => by obtain ⟨row, a, b⟩ := heval (q :: qs) s; exact ⟨row, a, b.trans hw⟩) draw s hdraw.2.2
  refine ⟨(s2, row :: rows), ?_⟩
  have hlt : ¬ (tr.take numTrain).length < numTrain := by simp; omega
  rw [hq]
  simp only [h1, (C108_rows _ row).1 (h2.trans hw), choiceNoRepl, if_neg hlt, h3]

/-- Environment 1 of two, three training problems of which two are used, two evaluation problems: the state collects the problems
trained on, an evaluation gives the number of problems seen per evaluation problem. -/
example : runProblems (fun p (s : List Nat) => .ok (s ++ [p])) (fun qs s => .ok (qs.map fun q => q + s.length))
    [[], [10, 20, 30]] [[1, 2], [3, 4]] 1 2 2 [1, 0] [] = .ok ([20, 10], [[3, 4], [4, 5], [5, 6]]) := by decide

example : DrawOf [1, 0] 2 2 := by unfold DrawOf; decide

/-- The same with one evaluation problem in environment 1: its figures fill both columns. -/
example : runProblems (fun p (s : List Nat) => .ok (s ++ [p])) (fun qs s => .ok (qs.map fun q => q + s.length))
    [[], [10, 20, 30]] [[1, 2], [3]] 1 2 2 [1, 0] [] = .ok ([20, 10], [[3, 3], [4, 4], [5, 5]]) := by decide

/-- With three evaluation problems in environment 1 the run raises before training. -/
example : runProblems (fun p (s : List Nat) => .ok (s ++ [p])) (fun qs s => .ok (qs.map fun q => q + s.length))
    [[], [10, 20, 30]] [[1, 2], [3, 4, 5]] 1 2 3 [1, 0] [] = .error .valueError := by decide

/-- With fewer training problems than asked for the run raises before training. -/
example : runProblems (fun p (s : List Nat) => .ok (s ++ [p])) (fun qs s => .ok (qs.map fun q => q + s.length))
    [[], [10]] [[1, 2], [3, 4]] 1 2 3 [] [] = .error .valueError := by decide

end Lop.Props
