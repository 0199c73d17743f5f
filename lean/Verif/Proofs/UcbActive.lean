import Verif.Proofs.GPActive
import Verif.Proofs.GPPosterior
import Verif.Proofs.UcbRegret

/-! # Lemmas about `UCBLearner` as a rule for choosing points -/

namespace Lop

open Spec MeasureTheory Matrix

variable {d n : Nat}

theorem gather_map (a : List ℝ) (idx : List Nat) (h : ∀ i ∈ idx, i < a.length) : gather a idx = .ok (idx.map fun i => a.getD i 0) := by
  induction idx with
  | nil => rfl
  | cons i rest ih =>
    have hi : i < a.length := h i (by simp)
    simp only [gather, List.getElem?_eq_getElem hi, ih fun j hj => h j (by simp [hj]), List.map_cons, List.getD_eq_getElem?_getD, Option.getD_some]

/-- Position of the first maximum of measurable functions. -/
theorem argmaxFrom_measurable {α : Type*} [MeasurableSpace α] {U : Nat → α → ℝ} (hU : ∀ i, Measurable (U i)) (l : List Nat) :
    ∀ (i best : Nat) (acc : α → ℝ), Measurable acc → Measurable fun v => argmaxFrom (l.map fun j => U j v) i best (acc v) := by
  induction l with
  | nil => intro i best acc _; exact measurable_const
  | cons j l ih =>
    intro i best acc hacc
    simp only [List.map_cons, argmaxFrom]
    exact Measurable.ite (measurableSet_lt hacc (hU j)) (ih _ _ _ (hU j)) (ih _ _ _ hacc)

/-- The upper confidence bound of candidate number `i`. -/
noncomputable def ucbScore (alpha : ℝ) (p : GPPred n) (i : Nat) : ℝ :=
  (List.ofFn p.mu).getD i 0 + alpha * Real.sqrt ((List.ofFn p.sigma).getD i 0)

theorem ucbScore_fin (alpha : ℝ) (p : GPPred n) (i : Fin n) : ucbScore alpha p i = p.mu i + alpha * Real.sqrt (p.sigma i) := by
  simp [ucbScore, List.getD_eq_getElem?_getD]

theorem select_one {ordL : Nat → Finset Nat → List Nat} (hordL : ∀ t, Enumerates (ordL t)) (ord : Finset Nat → List Nat) (alpha : ℝ) (p : GPPred n)
    {k i : Nat} (hk : npArgmax ((ordL 0 (Finset.range n)).map (ucbScore alpha p)) = .ok k) (hi : (ordL 0 (Finset.range n))[k]? = some i) :
    learnerSelect (ucbLearner ordL (List.ofFn p.mu) (List.ofFn p.sigma) alpha) false true none ord (List.ofFn p.mu) 1 ∅ ∅ = .ok [i] := by
  have hb : ∀ j ∈ ordL 0 (Finset.range n), j < n := fun j hj => by simpa using (hordL 0 _ j).1 hj
  have hin : i < n := hb i (List.mem_of_getElem? hi)
  have hg : (ucbLearner ordL (List.ofFn p.mu) (List.ofFn p.sigma) alpha).greedy 0 (Finset.range n) ∅ = .ok i := by
    simp only [ucbLearner]
    rw [gather_map _ _ (by simpa using hb), gather_map _ _ (by simpa using hb)]
    have : List.zipWith (fun m v => m + alpha * Real.sqrt v) ((ordL 0 (Finset.range n)).map fun i => (List.ofFn p.mu).getD i 0)
        ((ordL 0 (Finset.range n)).map fun i => (List.ofFn p.sigma).getD i 0) = (ordL 0 (Finset.range n)).map (ucbScore alpha p) := by
      rw [List.zipWith_map, List.zipWith_self]
      rfl
    simp only [this, pickMax, hk, hi]
  have hp : (ucbLearner ordL (List.ofFn p.mu) (List.ofFn p.sigma) alpha).pair = none := rfl
  have hne : Finset.range n ≠ ∅ := by
    intro h
    have : i ∈ Finset.range n := by simpa using hin
    rw [h] at this
    simp at this
  simp only [learnerSelect, effAlts, startSelection, selectLoop, Bool.false_eq_true, false_and, if_false, List.length_ofFn, List.length_nil,
    Nat.lt_one_iff, if_true, Finset.sdiff_self, ne_eq, not_true_eq_false, Option.getD_none, List.toFinset_nil, Finset.sdiff_empty, hne, hp, ite_self,
    Finset.empty_union, hg, Finset.mem_range, hin, List.nil_append, List.length_singleton, lt_irrefl]

/-- One pass asked for one candidate. -/
theorem choice_eq {cov : CovFn d} {alpha : ℝ} {turn : UcbTurn d} (hordL : ∀ t, Enumerates (turn.ordL t)) {st : GPState d}
    {p : GPPred turn.cands.length} (hp : gpRegress cov (fun _ => 0) st turn.cands.get = .ok p) (hn : 0 < turn.cands.length) :
    ∃ (k : Nat) (i : Fin turn.cands.length), npArgmax ((turn.ordL 0 (Finset.range turn.cands.length)).map (ucbScore alpha p)) = .ok k ∧
      (turn.ordL 0 (Finset.range turn.cands.length))[k]? = some i.val ∧ ucbChoice cov alpha turn st = turn.cands.get i ∧
      (∀ (s : ℝ) (f : Pt d → ℝ), ucbTurn cov alpha s f 1 turn st =
        .ok ([i.val], gpAdd (fun _ => 0) st [(turn.cands.get i, f (turn.cands.get i), s)])) ∧
      ∀ j, p.mu j + alpha * Real.sqrt (p.sigma j) ≤ p.mu i + alpha * Real.sqrt (p.sigma i) := by
  set l := turn.ordL 0 (Finset.range turn.cands.length) with hl
  have hmem : ∀ j, j ∈ l ↔ j < turn.cands.length := fun j => by rw [hl, hordL 0]; simp
  have hne : l.map (ucbScore alpha p) ≠ [] := by
    intro h
    rw [List.map_eq_nil_iff] at h
    have := (hmem 0).2 hn
    rw [h] at this
    cases this
  obtain ⟨k, hk⟩ := npArgmax_isOk hne
  obtain ⟨x, hx, hmax, -⟩ := npArgmax_spec hk
  rw [List.getElem?_map, Option.map_eq_some_iff] at hx
  obtain ⟨i, hi, rfl⟩ := hx
  have hin : i < turn.cands.length := (hmem i).1 (List.mem_of_getElem? hi)
  have hturn : ∀ (s : ℝ) (f : Pt d → ℝ), ucbTurn cov alpha s f 1 turn st =
      .ok ([i], gpAdd (fun _ => 0) st [(turn.cands.get ⟨i, hin⟩, f (turn.cands.get ⟨i, hin⟩), s)]) := by
    intro s f
    unfold ucbTurn
    simp only [hp, select_one hordL turn.ord alpha p hk hi]
    simp [List.getElem?_eq_getElem hin]
  refine ⟨k, ⟨i, hin⟩, hk, hi, ?_, hturn, fun j => ?_⟩
  · unfold ucbChoice
    simp [hturn, List.getElem?_eq_getElem hin]
  · have := hmax _ (List.mem_map.2 ⟨j.val, (hmem _).2 j.2, rfl⟩)
    rw [ucbScore_fin] at this
    exact this.trans (le_of_eq (ucbScore_fin alpha p ⟨i, hin⟩))

/-- The predictions for values measured at fixed points: the mean is a measurable function of the values, the rest does not depend on them. -/
theorem data_prediction (k : KExpr ℝ (Pt d)) (hok : AllLeaves (LeafOK (d = 1)) k) (hq : AllLeaves NoNoise k) (mean : Pt d → ℝ) (z : Nat → Pt d)
    {s : Nat → ℝ} (hs : ∀ t, 0 < s t) (T : Nat) (X : Fin n → Pt d) (hn : 0 < n) :
    ∃ pred : (Nat → ℝ) → GPPred n, (∀ v, gpRegress (kcov k) mean (dataOf mean z s v T) X = .ok (pred v)) ∧
      (∀ i, Measurable fun v => (pred v).mu i) ∧ ∀ v w i, (pred v).sigma i = (pred w).sigma i := by
  obtain ⟨g, hg, -, -, -⟩ := kernel_fn k hok hq
  rcases Nat.eq_zero_or_pos T with h0 | hT
  · subst h0
    obtain ⟨c, hc⟩ := cov_returns k X X hn
    exact ⟨fun _ => ⟨fun _ => 0, fun i => max 0 (c i i), c⟩, fun v => by simp [dataOf, gpRegress, kcov, hc], fun i => measurable_const, fun _ _ _ => rfl⟩
  · have hst : ∀ v, dataOf mean z s v T = some ((List.range T).map fun t => (z t, v t - mean (z t), s t)) := by
      intro v
      unfold dataOf
      rw [gpAdd_fold mean _ hT]
      simp [gpAdd]
    have hs' : ∀ v : Nat → ℝ, ∀ r ∈ (List.range T).map fun t => (z t, v t - mean (z t), s t), 0 < r.2.2 := by
      intro v r hr
      obtain ⟨t, -, rfl⟩ := List.mem_map.1 hr
      exact hs t
    have hne : ∀ v : Nat → ℝ, (List.range T).map (fun t => (z t, v t - mean (z t), s t)) ≠ [] := fun v => by simp; omega
    choose pred hpred using fun v => Props.C43_returns k hok (quiet_of_noNoise k hq) mean _ (hne v) (hs' v) X hn
    have hlin := fun v => gp_linear hg (hpred v) rfl
    refine ⟨pred, fun v => by rw [hst]; exact hpred v, fun i => ?_, fun v w i => ?_⟩
    · simp only [fun v => (hlin v).2.1 i, dotProduct]
      fun_prop
    · have h1 := fun v => (Props.C43_posterior k hok (quiet_of_noNoise k hq) mean _ (fun r hr => (hs' v r hr).le) X hn (hpred v))
      obtain ⟨_, -, -, -, a1⟩ := h1 v
      obtain ⟨_, -, -, -, a2⟩ := h1 w
      rw [(a1 i).1, (a2 i).1, (hlin v).2.2, (hlin w).2.2]

end Lop
