import Verif.Model.Samples
import Verif.Props.Mixed
import Verif.Props.SelectRet

/-! # C78: which utility samples a pair query is computed from -/

namespace Lop.Props

open Lop.Spec

variable {σ α : Type*}

/-- One call behaves, apart from the samples, like the model of `Model/Mixed.lean`. -/
theorem mds_md (prob : Nat → ℝ) (st : MDSState σ) (i : MDSIn σ α) :
    ∃ j, (mdsSelect prob st i).1.md = (mdSelect prob st.md j).1 ∧
      (mdsSelect prob st i).2 = (mdSelect prob st.md j).2 := by
  obtain ⟨⟨n, s⟩, ps, cs⟩ := st
  unfold mdsSelect
  simp only
  by_cases hd : n = 5 ∨ n = 10 ∨ n = 15 ∨ s = 3
  · rw [if_pos hd]
    have hst : (if n = 5 ∨ n = 10 ∨ n = 15 then 3 else s) = 3 := by split <;> omega
    have hst' : (if n = 5 ∨ n = 10 ∨ n = 15 then 3 else 3) = 3 := by split <;> rfl
    cases hf : i.fresh with
    | error e => exact ⟨⟨i.draw, i.abs, .error e, .error e, .error e⟩, by simp [mdSelect, hst], by simp [mdSelect, hst]⟩
    | ok x =>
      refine ⟨⟨i.draw, i.abs, i.pairSel x, i.pairSel2 x, i.metrics x x⟩, ?_, ?_⟩ <;>
        simp only [mdSelect, hst, hst']
  · rw [if_neg hd]; exact ⟨_, rfl, rfl⟩

/-- A history behaves, apart from the samples, like one of `Model/Mixed.lean`. -/
theorem mds_run (prob : Nat → ℝ) (ops : List (MDSOp σ α)) :
    ∃ ops' : List (MDOp α), (mdsRun prob ops).md = mdRun prob ops' := by
  induction ops using List.reverseRecOn with
  | nil => exact ⟨[], rfl⟩
  | append_singleton l o ih =>
    obtain ⟨l', hl⟩ := ih
    rw [mdsRun, List.foldl_append, ← mdsRun]
    cases o with
    | setModel => exact ⟨[.setModel], rfl⟩
    | select i =>
      obtain ⟨j, hj, -⟩ := mds_md prob (mdsRun prob l) i
      refine ⟨l' ++ [.select j], ?_⟩
      rw [mdRun, List.foldl_append, ← mdRun, ← hl]
      exact hj

theorem mds_not3 (prob : Nat → ℝ) (ops : List (MDSOp σ α)) (h : ¬ mdDecides (mdsRun prob ops).md.calls) :
    ¬ ((mdsRun prob ops).md.calls = 5 ∨ (mdsRun prob ops).md.calls = 10 ∨ (mdsRun prob ops).md.calls = 15 ∨
      (mdsRun prob ops).md.state = 3) := by
  obtain ⟨l, hl⟩ := mds_run prob ops
  have := (md_state_le prob l).2
  rw [← hl] at this
  unfold mdDecides at *
  tauto

/-- Outside decisions a returned pair query comes from `pairwise_l.select`. -/
theorem mdSelect_pair {prob : Nat → ℝ} {st : MDState} {i : MDIn α} {x : α}
    (hn : ¬ (st.calls = 5 ∨ st.calls = 10 ∨ st.calls = 15 ∨ st.state = 3)) (hp : i.pair2 = i.pair)
    (hm : ∀ m, i.metrics ≠ .ok m) (hr : (mdSelect prob st i).2 = .ok (.pair, x)) : i.pair = .ok x := by
  obtain ⟨n, s⟩ := st
  obtain ⟨draw, ab, pr, pr2, me⟩ := i
  simp only at hn hp hm
  have h1 : ¬ (n = 5 ∨ n = 10 ∨ n = 15) := fun h => hn (by tauto)
  simp only [mdSelect, if_neg h1] at hr
  subst hp
  revert hr
  repeat' split
  all_goals first
    | (intro h; simp only [Except.ok.injEq, Prod.mk.injEq, reduceCtorEq, false_and] at h)
    | skip
  all_goals first
    | (simp_all; done)
    | skip

/-- C78 (decisions): when the two query types are compared and the samples can be drawn, both sub-learners
are given the samples just drawn, and a returned pair query is computed from them. -/
theorem C78_decision (prob : Nat → ℝ) (ops : List (MDSOp σ α)) (hd : mdDecides (mdsRun prob ops).md.calls)
    (i : MDSIn σ α) {s : σ} (hs : i.fresh = .ok s) :
    (mdsSelect prob (mdsRun prob ops) i).1.pairS = some s ∧
    (mdsSelect prob (mdsRun prob ops) i).1.compS = some s ∧
    ∀ x, (mdsSelect prob (mdsRun prob ops) i).2 = .ok (.pair, x) → i.pairSel s = .ok x ∨ i.pairSel2 s = .ok x := by
  generalize mdsRun prob ops = st at hd
  have hc : st.md.calls = 5 ∨ st.md.calls = 10 ∨ st.md.calls = 15 ∨ st.md.state = 3 := by
    unfold mdDecides at hd; tauto
  unfold mdsSelect
  rw [if_pos hc, hs]
  refine ⟨rfl, rfl, fun x hr => ?_⟩
  simp only [mdSelect, ite_self] at hr
  simp only [OfNat.ofNat_ne_zero, OfNat.ofNat_ne_one, if_false, show ¬ (3 : Nat) = 2 by decide] at hr
  revert hr
  repeat' split
  all_goals first
    | (intro h; simp only [Except.ok.injEq, Prod.mk.injEq, reduceCtorEq, false_and] at h)
    | skip
  all_goals simp_all

/-- C78 (before the first decision): as long as fewer than six selections were made and the model was never
replaced, a pair query is computed from samples of the present model for the present candidates. -/
theorem C78_first_partial (prob : Nat → ℝ) (sels : List (MDSIn σ α))
    (h : (mdsRun prob (sels.map .select)).md.calls < 5) (i : MDSIn σ α) (x : α)
    (hr : (mdsSelect prob (mdsRun prob (sels.map .select)) i).2 = .ok (.pair, x)) :
    ∃ s, i.fresh = .ok s ∧ i.pairSel s = .ok x := by
  have hmono : ∀ (st : MDSState σ) (i : MDSIn σ α), st.md.calls ≤ (mdsSelect prob st i).1.md.calls := by
    intro st i
    obtain ⟨j, hj, -⟩ := mds_md prob st i
    rw [hj, C50_decision_counts]
    split <;> omega
  have hinv : (mdsRun prob (sels.map MDSOp.select)).pairS = none := by
    clear hr
    revert h
    induction sels using List.reverseRecOn with
    | nil => intro _; rfl
    | append_singleton l o ih =>
      rw [List.map_append, mdsRun, List.foldl_append, ← mdsRun]
      simp only [List.map_cons, List.map_nil, List.foldl_cons, List.foldl_nil, mdsStep]
      intro h
      have hlt := lt_of_le_of_lt (hmono _ _) h
      have ih' := ih hlt
      have hn := mds_not3 prob (l.map MDSOp.select) (by unfold mdDecides; omega)
      unfold mdsSelect
      rw [if_neg hn]
      exact ih'
  have hn := mds_not3 prob (sels.map MDSOp.select) (by unfold mdDecides; omega)
  generalize mdsRun prob (sels.map MDSOp.select) = st at *
  unfold mdsSelect at hr
  rw [if_neg hn] at hr
  have := mdSelect_pair hn rfl (by simp) hr
  rw [hinv] at this
  cases hf : i.fresh with
  | error e => rw [hf] at this; simp [getSamples, Except.bind] at this
  | ok s => rw [hf] at this; exact ⟨s, rfl, this⟩

/-- C78 refuted (stale samples): once samples were set, every pair query outside a decision is computed from
them, whatever the present model and candidates are, and they stay set. -/
theorem C78_stale_false (prob : Nat → ℝ) (ops : List (MDSOp σ α)) {s : σ} (hs : (mdsRun prob ops).pairS = some s)
    (hd : ¬ mdDecides (mdsRun prob ops).md.calls) (i : MDSIn σ α) :
    (mdsSelect prob (mdsRun prob ops) i).1.pairS = some s ∧
    ∀ x, (mdsSelect prob (mdsRun prob ops) i).2 = .ok (.pair, x) → i.pairSel s = .ok x := by
  have hn := mds_not3 prob ops hd
  generalize mdsRun prob ops = st at *
  unfold mdsSelect
  rw [if_neg hn]
  refine ⟨hs, fun x hr => ?_⟩
  have := mdSelect_pair hn rfl (by simp) hr
  rwa [hs] at this

/-- C78 refuted (new model): `set_model` keeps the old samples, although the counter is reset. -/
theorem C78_set_model_false (prob : Nat → ℝ) (ops : List (MDSOp σ α)) {s : σ}
    (hs : (mdsRun prob ops).pairS = some s) (i : MDSIn σ α) (x : α)
    (hr : (mdsSelect prob (mdsRun prob (ops ++ [.setModel])) i).2 = .ok (.pair, x)) : i.pairSel s = .ok x := by
  have e : mdsRun prob (ops ++ [.setModel]) = ⟨⟨0, 0⟩, (mdsRun prob ops).pairS, (mdsRun prob ops).compS⟩ := by
    rw [mdsRun, List.foldl_append]; rfl
  exact (C78_stale_false prob (ops ++ [.setModel]) (by rw [e]; exact hs)
    (by rw [e]; simp [mdDecides]) i).2 x hr

/-- C78 refuted (for ever): after 16 selections there is one set of samples from which all later pair queries
are computed, for every sequence of later models and candidates. -/
theorem C78_forever_false (prob : Nat → ℝ) (ops : List (MDSOp σ α)) (h : 16 ≤ (mdsRun prob ops).md.calls)
    (hm : ∀ o ∈ ops, ∃ i, o = .select i) :
    ∃ s, ∀ (later : List (MDSIn σ α)) (i : MDSIn σ α) (x : α),
      (mdsSelect prob (mdsRun prob (ops ++ later.map .select)) i).2 = .ok (.pair, x) → i.pairSel s = .ok x := by
  have hmono : ∀ (st : MDSState σ) (i : MDSIn σ α), st.md.calls ≤ (mdsSelect prob st i).1.md.calls ∧
      (mdsSelect prob st i).1.md.calls ≤ st.md.calls + 1 := by
    intro st i
    obtain ⟨j, hj, -⟩ := mds_md prob st i
    rw [hj, C50_decision_counts]
    split <;> omega
  have hinv : ∀ l : List (MDSOp σ α), (∀ o ∈ l, ∃ i, o = .select i) → 5 < (mdsRun prob l).md.calls →
      (mdsRun prob l).md.state ≠ 3 → ∃ s, (mdsRun prob l).pairS = some s := by
    intro l
    induction l using List.reverseRecOn with
    | nil => intro _ h; simp [mdsRun] at h
    | append_singleton l o ih =>
      intro hl hc hst
      obtain ⟨i, rfl⟩ := hl o (by simp)
      have hl' : ∀ o ∈ l, ∃ i, o = MDSOp.select i := fun o ho => hl o (by simp [ho])
      rw [mdsRun, List.foldl_append, ← mdsRun] at hc hst ⊢
      simp only [List.foldl_cons, List.foldl_nil, mdsStep] at hc hst ⊢
      by_cases hd : mdDecides (mdsRun prob l).md.calls
      · cases hf : i.fresh with
        | ok s => exact ⟨s, (C78_decision prob l hd i hf).1⟩
        | error e =>
          exfalso; apply hst
          unfold mdsSelect
          rw [if_pos (by unfold mdDecides at hd; tauto), hf]
      · have hn := mds_not3 prob l hd
        have h1 := (hmono (mdsRun prob l) i).2
        have h2 := (hmono (mdsRun prob l) i).1
        have hgt : 5 < (mdsRun prob l).md.calls := by
          unfold mdDecides at hd; omega
        obtain ⟨s, hs⟩ := ih hl' hgt (fun h3 => hn (by tauto))
        exact ⟨s, (C78_stale_false prob l hs hd i).1⟩
  have hd : ¬ mdDecides (mdsRun prob ops).md.calls := by unfold mdDecides; omega
  obtain ⟨s, hs⟩ := hinv ops hm (by omega) (fun h3 => mds_not3 prob ops hd (by tauto))
  refine ⟨s, fun later i x hr => ?_⟩
  have hall : (mdsRun prob (ops ++ later.map .select)).pairS = some s ∧
      16 ≤ (mdsRun prob (ops ++ later.map .select)).md.calls := by
    clear hr
    induction later using List.reverseRecOn with
    | nil => simpa using ⟨hs, h⟩
    | append_singleton l o ih =>
      have e : mdsRun prob (ops ++ (l ++ [o]).map .select) =
          (mdsSelect prob (mdsRun prob (ops ++ l.map .select)) o).1 := by
        rw [List.map_append, ← List.append_assoc, mdsRun, List.foldl_append, ← mdsRun]; rfl
      rw [e]
      exact ⟨(C78_stale_false prob _ ih.1 (by unfold mdDecides; omega) o).1,
        le_trans ih.2 (hmono _ _).1⟩
  exact (C78_stale_false prob _ hall.1 (by unfold mdDecides; omega) i).2 x hr

/-- Inputs of one call: the draw asks for a pair query, the samples are numbered `k`, and the pair query is the
number of the samples it is computed from. -/
def mdsDemo (k : Nat) : MDSIn Nat Nat :=
  ⟨1, .ok 100, .ok k, fun s => .ok s, fun s => .ok s, fun _ _ => .ok (1, 1)⟩

/-- The `n`-th call is given samples numbered `n`. -/
def mdsDemoOps (n : Nat) : List (MDSOp Nat Nat) := (List.range n).map fun k => .select (mdsDemo k)

theorem mdsDemo_draw : drawPick 1 0 = .pair := by
  unfold drawPick; rw [if_neg (by norm_num)]

theorem mdsDemo_ratio : ratioLarge 1 1 = False := by
  unfold ratioLarge; norm_num

/-- C78 refuted (concretely): in a run of seven calls the last one returns a pair query computed from the
samples of the sixth call, not from its own. -/
theorem C78_stale_counterexample :
    (mdsSelect (fun _ => 0) (mdsRun (fun _ => 0) (mdsDemoOps 6)) (mdsDemo 6)).2 = .ok (.pair, 5) ∧
    (mdsDemo 6).fresh = .ok 6 ∧ (mdsDemo 6).pairSel 6 = .ok 6 := by
  refine ⟨?_, rfl, rfl⟩
  simp [mdsDemoOps, mdsDemo, mdsRun, mdsStep, mdsSelect, mdSelect, getSamples, List.range_succ, Except.bind,
    mdsDemo_draw, mdsDemo_ratio]

/-- After six calls the samples are those of the sixth, also after the model was replaced. -/
example : (mdsRun (fun _ => 0) (mdsDemoOps 6)).pairS = some 5 ∧
    ¬ mdDecides (mdsRun (fun _ => 0) (mdsDemoOps 6)).md.calls ∧
    (mdsSelect (fun _ => 0) (mdsRun (fun _ => 0) (mdsDemoOps 6 ++ [.setModel])) (mdsDemo 6)).2 =
      .ok (.pair, 5) := by
  simp [mdsDemoOps, mdsDemo, mdsRun, mdsStep, mdsSelect, mdSelect, getSamples, List.range_succ, mdDecides,
    Except.bind, mdsDemo_draw, mdsDemo_ratio]

/-- Before the first decision the samples are those of the call. -/
example : (mdsRun (fun _ => 0) (mdsDemoOps 3)).md.calls < 5 ∧
    (mdsSelect (fun _ => 0) (mdsRun (fun _ => 0) (mdsDemoOps 3)) (mdsDemo 3)).2 = .ok (.pair, 3) := by
  simp [mdsDemoOps, mdsDemo, mdsRun, mdsStep, mdsSelect, mdSelect, getSamples, List.range_succ, Except.bind,
    mdsDemo_draw, mdsDemo_ratio]

/-- Sixteen calls meet the hypotheses of `C78_forever_false`. -/
example : 16 ≤ (mdsRun (fun _ => 0) (mdsDemoOps 16)).md.calls ∧
    ∀ o ∈ mdsDemoOps 16, ∃ i, o = .select i := by
  refine ⟨?_, fun o ho => ?_⟩
  · simp [mdsDemoOps, mdsDemo, mdsRun, mdsStep, mdsSelect, mdSelect, getSamples, List.range_succ, Except.bind,
    mdsDemo_draw, mdsDemo_ratio]
  · obtain ⟨k, -, rfl⟩ := List.mem_map.1 ho
    exact ⟨_, rfl⟩

/-- C78 (valid queries): if the samples were computed for the present candidates, then
`AcquisitionSelection.select` returns a valid query. -/
theorem C78_valid_partial {K : Type*} [LinearOrder K] (s : SampledMetric K)
    (greedy : Nat → Finset Nat → Finset Nat → Except PyErr Nat)
    (mu : List K) (hgreedy : ∀ t idx prev, idx.Nonempty → idx ⊆ Finset.range mu.length →
      ∃ i ∈ idx, greedy t idx prev = .ok i) (hN : s.N = mu.length) (hs : SortedPairs s.m s.sorted)
    (draw : Nat → Nat → Nat) (hdraw : ∀ t k, 0 < k → draw t k < k) (alwaysBest pairFirst : Bool)
    {ord : Finset Nat → List Nat} (hord : Enumerates ord) (numAlts : Nat)
    (prefer : Finset Nat) (hpref : prefer ⊆ Finset.range mu.length) (hn : 2 ≤ numAlts)
    (hle : numAlts ≤ mu.length) :
    ∃ sel, acqSelect s greedy draw alwaysBest pairFirst ord mu numAlts prefer ∅ = .ok sel ∧
      FreshChoice mu.length numAlts ∅ sel := by
  obtain ⟨N, m, sorted⟩ := s
  simp only at hN
  subst hN
  exact C46_metric_partial greedy mu hgreedy (fun _ => m) (fun _ => sorted) (fun _ => hs) draw hdraw
    alwaysBest pairFirst hord numAlts prefer hpref hn hle

/-- A metric for five candidates in which the pair (3, 4) is best. -/
def staleMetric : SampledMetric Int :=
  ⟨5, fun i j => if i = 3 ∧ j = 4 then 1 else 0,
    [(3, 4), (4, 3), (0, 1), (0, 2), (0, 3), (0, 4), (1, 0), (1, 2), (1, 3), (1, 4), (2, 0), (2, 1), (2, 3),
      (2, 4), (3, 0), (3, 1), (3, 2), (4, 0), (4, 1), (4, 2), (0, 0), (1, 1), (2, 2), (3, 3), (4, 4)]⟩

example : SortedPairs staleMetric.m staleMetric.sorted :=
  ⟨by decide +kernel, by decide +kernel, by decide +kernel⟩

/-- C78 refuted (invalid queries): with samples kept from five candidates, a selection from three candidates
returns the indices 3 and 4. -/
theorem C78_out_of_range_counterexample :
    acqSelect staleMetric (fun _ _ _ => .error .notImplemented) (fun _ _ => 0) false true
      (fun f => f.sort (· ≤ ·)) [0, 0, 0] 2 {0, 1, 2} ∅ = .ok [3, 4] ∧
    ¬ FreshChoice 3 2 ∅ [3, 4] := by
  refine ⟨by decide +kernel, fun h => ?_⟩
  exact absurd (h.fresh 3 (by simp)).1 (by decide)

end Lop.Props
