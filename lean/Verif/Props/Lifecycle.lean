import Verif.Model.Lifecycle
import Verif.Spec.Lifecycle
import Verif.Proofs.Basic

/-! # C84, C85: a model selects with its own predictions, and with a present belief -/

namespace Lop.Props

open Lop Spec

section C84

theorem setModel_mem (m : Nat) (l : LearnerTree) (h : ModelAttrs) (i : Nat) (hi : i ∈ treeParts l) :
    l.setModel m h i = some m := by
  have keep : ∀ (l : LearnerTree) (h : ModelAttrs), h i = some m → l.setModel m h i = some m := by
    intro l
    induction l with
    | simple j b =>
      intro h hh
      rw [LearnerTree.setModel, Function.update_apply]
      split_ifs
      · rfl
      · exact hh
    | two j mode p a ihp iha => intro h hh; exact iha _ (ihp _ hh)
    | three j mode p a c ihp iha ihc => intro h hh; exact ihc _ (iha _ (ihp _ hh))
  induction l generalizing h with
  | simple j b =>
    simp only [treeParts, List.mem_singleton] at hi
    subst hi
    simp [LearnerTree.setModel]
  | two j mode p a ihp iha =>
    simp only [treeParts, List.mem_append] at hi
    rcases hi with hi | hi
    · exact keep a _ (ihp _ hi)
    · exact iha _ hi
  | three j mode p a c ihp iha ihc =>
    simp only [treeParts, List.mem_append] at hi
    rcases hi with (hi | hi) | hi
    · exact keep c _ (keep a _ (ihp _ hi))
    · exact keep c _ (iha _ hi)
    · exact ihc _ hi

theorem setModel_not_mem (m : Nat) (l : LearnerTree) (h : ModelAttrs) (i : Nat) (hi : i ∉ treeParts l) :
    l.setModel m h i = h i := by
  induction l generalizing h with
  | simple j b =>
    simp only [treeParts, List.mem_singleton] at hi
    simp [LearnerTree.setModel, Function.update_apply, hi]
  | two j mode p a ihp iha =>
    simp only [treeParts, List.mem_append, not_or] at hi
    rw [LearnerTree.setModel, iha _ hi.2, ihp _ hi.1]
  | three j mode p a c ihp iha ihc =>
    simp only [treeParts, List.mem_append, not_or] at hi
    rw [LearnerTree.setModel, ihc _ hi.2, iha _ hi.1.2, ihp _ hi.1.1]

theorem inTurn_all {xs : List (Except PyErr (List Nat))} {r : List Nat} {m : Nat} (h : inTurn xs = .ok r)
    (hx : ∀ x ∈ xs, ∀ ms, x = .ok ms → ∀ y ∈ ms, y = m) : ∀ y ∈ r, y = m := by
  induction xs generalizing r with
  | nil => simp only [inTurn, Except.ok.injEq] at h; subst h; simp
  | cons x xs ih =>
    cases x with
    | error e => simp [inTurn] at h
    | ok ms =>
      rw [inTurn] at h
      cases hr : inTurn xs with
      | error e => rw [hr] at h; cases h
      | ok ns =>
        rw [hr] at h
        simp only [Except.ok.injEq] at h
        subst h
        intro y hy
        rcases List.mem_append.1 hy with hy | hy
        · exact hx _ (by simp) ms rfl y hy
        · exact ih hr (fun x hx' => hx x (by simp [hx'])) y hy

theorem inTurn_ne_nil {xs : List (Except PyErr (List Nat))} {r : List Nat} (h : inTurn xs = .ok r)
    {x : Except PyErr (List Nat)} (hx : x ∈ xs) (hn : ∀ ms, x = .ok ms → ms ≠ []) : r ≠ [] := by
  induction xs generalizing r with
  | nil => cases hx
  | cons y xs ih =>
    cases y with
    | error e => simp [inTurn] at h
    | ok ms =>
      rw [inTurn] at h
      cases hr : inTurn xs with
      | error e => rw [hr] at h; cases h
      | ok ns =>
        rw [hr] at h
        simp only [Except.ok.injEq] at h
        subst h
        rcases List.mem_cons.1 hx with hx | hx
        · simp [hn ms hx]
        · simp [ih hr hx]

theorem inTurn_total {xs : List (Except PyErr (List Nat))} (hx : ∀ x ∈ xs, ∃ ms, x = .ok ms) :
    ∃ r, inTurn xs = .ok r := by
  induction xs with
  | nil => exact ⟨[], rfl⟩
  | cons x xs ih =>
    obtain ⟨ms, rfl⟩ := hx x (by simp)
    obtain ⟨ns, hn⟩ := ih fun x hx' => hx x (by simp [hx'])
    exact ⟨ms ++ ns, by rw [inTurn, hn]⟩

theorem needSamples_ok {l : LearnerTree} {ms : List Nat} (h : l.needSamples = .ok ms) : ms = [] ∧ IsAcq l := by
  cases l with
  | simple i b => cases b <;> simp [LearnerTree.needSamples] at h; exact ⟨h, i, rfl⟩
  | two _ _ _ _ => simp [LearnerTree.needSamples] at h
  | three _ _ _ _ _ => simp [LearnerTree.needSamples] at h

/-- All uses are of the model the parts are attached to. -/
theorem consulted_all {h : ModelAttrs} {m : Nat} (ask : Nat → Option Bool) (l : LearnerTree)
    (hl : ∀ i ∈ treeParts l, h i = some m) {ms : List Nat} (hc : l.consulted h ask = .ok ms) :
    (∀ x ∈ ms, x = m) ∧ ms ≠ [] := by
  have attr : ∀ (l : LearnerTree), (∀ i ∈ treeParts l, h i = some m) → IsAcq l → ∀ ms, l.modelOf h = .ok ms → ms = [m] := by
    rintro _ hl ⟨i, rfl⟩ ms hm
    have := hl i (by simp [treeParts])
    simp only [LearnerTree.modelOf, LearnerTree.id, this, Except.ok.injEq] at hm
    exact hm.symm
  have acq : ∀ (x : LearnerTree) (xs : List (Except PyErr (List Nat))) (r : List Nat),
      inTurn xs = .ok r → x.needSamples ∈ xs → IsAcq x := by
    intro x xs r hr hx
    induction xs generalizing r with
    | nil => cases hx
    | cons y xs ih =>
      cases y with
      | error e => simp [inTurn] at hr
      | ok ms =>
        rw [inTurn] at hr
        cases hr' : inTurn xs with
        | error e => rw [hr'] at hr; cases hr
        | ok ns =>
          rcases List.mem_cons.1 hx with hx | hx
          · exact (needSamples_ok hx).2
          · exact ih ns hr' hx
  induction l generalizing ms with
  | simple i b =>
    have := hl i (by simp [treeParts])
    simp only [LearnerTree.consulted, LearnerTree.modelOf, LearnerTree.id, this, Except.ok.injEq] at hc
    subst hc
    simp
  | two j mode p a ihp iha =>
    simp only [treeParts, List.mem_append] at hl
    have hp : ∀ i ∈ treeParts p, h i = some m := fun i hi => hl i (.inl hi)
    have ha : ∀ i ∈ treeParts a, h i = some m := fun i hi => hl i (.inr hi)
    cases mode with
    | sampling =>
      rw [LearnerTree.consulted] at hc
      have qp := acq p _ _ hc (by simp)
      refine ⟨inTurn_all hc ?_, inTurn_ne_nil hc (x := p.consulted h ask) (by simp) fun ms hm => (ihp hp hm).2⟩
      intro x hx ms hm
      simp only [List.mem_cons, List.not_mem_nil, or_false] at hx
      rcases hx with rfl | rfl | rfl | rfl | rfl
      · simp [(needSamples_ok hm).1]
      · simp [attr p hp qp ms hm]
      · simp [(needSamples_ok hm).1]
      · exact (ihp hp hm).1
      · exact (iha ha hm).1
    | both =>
      rw [LearnerTree.consulted] at hc
      refine ⟨inTurn_all hc ?_, inTurn_ne_nil hc (x := p.consulted h ask) (by simp) fun ms hm => (ihp hp hm).2⟩
      intro x hx ms hm
      simp only [List.mem_cons, List.not_mem_nil, or_false] at hx
      rcases hx with rfl | rfl
      · exact (ihp hp hm).1
      · exact (iha ha hm).1
    | one =>
      rw [LearnerTree.consulted] at hc
      split_ifs at hc
      · exact iha ha hc
      · exact ihp hp hc
  | three j mode p a c ihp iha ihc =>
    simp only [treeParts, List.mem_append] at hl
    have hp : ∀ i ∈ treeParts p, h i = some m := fun i hi => hl i (.inl (.inl hi))
    have ha : ∀ i ∈ treeParts a, h i = some m := fun i hi => hl i (.inl (.inr hi))
    have hcc : ∀ i ∈ treeParts c, h i = some m := fun i hi => hl i (.inr hi)
    cases mode with
    | sampling =>
      rw [LearnerTree.consulted] at hc
      have qp := acq p _ _ hc (by simp)
      have qc := acq c _ _ hc (by simp)
      refine ⟨inTurn_all hc ?_, inTurn_ne_nil hc (x := p.consulted h ask) (by simp) fun ms hm => (ihp hp hm).2⟩
      intro x hx ms hm
      simp only [List.mem_cons, List.not_mem_nil, or_false] at hx
      rcases hx with rfl | rfl | rfl | rfl | rfl | rfl
      · simp [(needSamples_ok hm).1]
      · simp [attr p hp qp ms hm]
      · simp [(needSamples_ok hm).1]
      · exact (ihp hp hm).1
      · exact (iha ha hm).1
      · simp [attr c hcc qc ms hm]
    | deciding =>
      rw [LearnerTree.consulted] at hc
      have qp := acq p _ _ hc (by simp)
      refine ⟨inTurn_all hc ?_, inTurn_ne_nil hc (x := p.consulted h ask) (by simp) fun ms hm => (ihp hp hm).2⟩
      intro x hx ms hm
      simp only [List.mem_cons, List.not_mem_nil, or_false] at hx
      rcases hx with rfl | rfl | rfl | rfl | rfl | rfl
      · simp [(needSamples_ok hm).1]
      · simp [attr p hp qp ms hm]
      · simp [(needSamples_ok hm).1]
      · exact (ihp hp hm).1
      · exact (ihc hcc hm).1
      · revert hm
        cases ask j with
        | none => intro hm; injection hm with hm; subst hm; simp
        | some b => cases b <;> intro hm; exacts [(ihp hp hm).1, (iha ha hm).1]
    | one =>
      rw [LearnerTree.consulted] at hc
      split_ifs at hc
      · exact iha ha hc
      · exact ihp hp hc

/-- If the samples fit, `select` raises nothing on account of a missing attribute. -/
theorem consulted_total {h : ModelAttrs} {m : Nat} (ask : Nat → Option Bool) (l : LearnerTree)
    (hl : ∀ i ∈ treeParts l, h i = some m) (hf : SamplesFit l) : ∃ ms, l.consulted h ask = .ok ms := by
  have attr : ∀ (l : LearnerTree), (∀ i ∈ treeParts l, h i = some m) → IsAcq l →
      l.needSamples = .ok [] ∧ l.modelOf h = .ok [m] ∧ l.consulted h ask = .ok [m] := by
    rintro _ hl ⟨i, rfl⟩
    have := hl i (by simp [treeParts])
    simp [LearnerTree.needSamples, LearnerTree.consulted, LearnerTree.modelOf, LearnerTree.id, this]
  induction l with
  | simple i b =>
    have := hl i (by simp [treeParts])
    exact ⟨[m], by simp [LearnerTree.consulted, LearnerTree.modelOf, LearnerTree.id, this]⟩
  | two j mode p a ihp iha =>
    simp only [treeParts, List.mem_append] at hl
    have hp : ∀ i ∈ treeParts p, h i = some m := fun i hi => hl i (.inl hi)
    have ha : ∀ i ∈ treeParts a, h i = some m := fun i hi => hl i (.inr hi)
    cases mode with
    | sampling =>
      obtain ⟨fp, fa⟩ := hf
      obtain ⟨p1, p2, p3⟩ := attr p hp fp
      obtain ⟨a1, a2, a3⟩ := attr a ha fa
      rw [LearnerTree.consulted]
      refine inTurn_total fun x hx => ?_
      simp only [List.mem_cons, List.not_mem_nil, or_false] at hx
      rcases hx with rfl | rfl | rfl | rfl | rfl
      exacts [⟨_, p1⟩, ⟨_, p2⟩, ⟨_, a1⟩, ⟨_, p3⟩, ⟨_, a3⟩]
    | both =>
      rw [LearnerTree.consulted]
      refine inTurn_total fun x hx => ?_
      simp only [List.mem_cons, List.not_mem_nil, or_false] at hx
      rcases hx with rfl | rfl
      exacts [ihp hp hf.1, iha ha hf.2]
    | one =>
      rw [LearnerTree.consulted]
      split_ifs
      exacts [iha ha hf.2, ihp hp hf.1]
  | three j mode p a c ihp iha ihc =>
    simp only [treeParts, List.mem_append] at hl
    have hp : ∀ i ∈ treeParts p, h i = some m := fun i hi => hl i (.inl (.inl hi))
    have ha : ∀ i ∈ treeParts a, h i = some m := fun i hi => hl i (.inl (.inr hi))
    have hcc : ∀ i ∈ treeParts c, h i = some m := fun i hi => hl i (.inr hi)
    cases mode with
    | sampling =>
      obtain ⟨fp, fc, fa⟩ := hf
      obtain ⟨p1, p2, p3⟩ := attr p hp fp
      obtain ⟨c1, c2, c3⟩ := attr c hcc fc
      rw [LearnerTree.consulted]
      refine inTurn_total fun x hx => ?_
      simp only [List.mem_cons, List.not_mem_nil, or_false] at hx
      rcases hx with rfl | rfl | rfl | rfl | rfl | rfl
      exacts [⟨_, p1⟩, ⟨_, p2⟩, ⟨_, c1⟩, ⟨_, p3⟩, iha ha fa, ⟨_, c2⟩]
    | deciding =>
      obtain ⟨fp, fc, fa⟩ := hf
      obtain ⟨p1, p2, p3⟩ := attr p hp fp
      obtain ⟨c1, c2, c3⟩ := attr c hcc fc
      rw [LearnerTree.consulted]
      refine inTurn_total fun x hx => ?_
      simp only [List.mem_cons, List.not_mem_nil, or_false] at hx
      rcases hx with rfl | rfl | rfl | rfl | rfl | rfl
      · exact ⟨_, p1⟩
      · exact ⟨_, p2⟩
      · exact ⟨_, c1⟩
      · exact ⟨_, p3⟩
      · exact ⟨_, c3⟩
      · cases ask j with
        | none => exact ⟨_, rfl⟩
        | some b => cases b; exacts [⟨_, p3⟩, iha ha fa]
    | one =>
      rw [LearnerTree.consulted]
      split_ifs
      exacts [iha ha hf.2, ihp hp hf.1]

/-- The attachment survives operations that leave its objects alone. -/
theorem attach_survives {m : Nat} {l : LearnerTree} {ops : List AttachOp}
    (hops : ∀ op ∈ ops, LeavesAlone m (treeParts l) op) (s : AttachState) (h1 : s.learnerOf m = some l)
    (h2 : ∀ i ∈ treeParts l, s.attrs i = some m) :
    (ops.foldl attachStep s).learnerOf m = some l ∧ ∀ i ∈ treeParts l, (ops.foldl attachStep s).attrs i = some m := by
  induction ops generalizing s with
  | nil => exact ⟨h1, h2⟩
  | cons op ops ih =>
    rw [List.foldl_cons]
    have ho := hops op (by simp)
    refine ih (fun o ho => hops o (by simp [ho])) _ ?_ ?_
    · cases op with
      | newModel m' l' =>
        cases l' with
        | none => simp only [attachStep]; rw [Function.update_of_ne (Ne.symm ho), h1]
        | some l' => simp only [attachStep]; rw [Function.update_of_ne (Ne.symm ho.1), h1]
      | setModel l' m' => exact h1
    · intro i hi
      cases op with
      | newModel m' l' =>
        cases l' with
        | none => exact h2 i hi
        | some l' => exact (setModel_not_mem m' l' _ i fun hc => ho.2 i hc hi).trans (h2 i hi)
      | setModel l' m' => exact (setModel_not_mem m' l' _ i fun hc => ho i hc hi).trans (h2 i hi)

/-- C84 (as long as no later operation attaches a part of its learner elsewhere): whatever happened before, `select` of a model constructed
with a learner uses this model and no other; and it raises nothing on account of a missing model or method if the sub-learners that are
given samples can take them. -/
theorem C84_own (before after : List AttachOp) (m : Nat) (l : LearnerTree) (ask : Nat → Option Bool)
    (hafter : ∀ op ∈ after, LeavesAlone m (treeParts l) op) :
    (∀ ms, modelSelect (attachRun (before ++ .newModel m (some l) :: after)) ask m = .ok ms →
      (∀ x ∈ ms, x = m) ∧ ms ≠ []) ∧
    (SamplesFit l → ∃ ms, modelSelect (attachRun (before ++ .newModel m (some l) :: after)) ask m = .ok ms) := by
  have hs : attachRun (before ++ .newModel m (some l) :: after) =
      after.foldl attachStep (attachStep (attachRun before) (.newModel m (some l))) := by
    simp [attachRun]
  obtain ⟨h1, h2⟩ := attach_survives hafter (attachStep (attachRun before) (.newModel m (some l)))
    (by simp [attachStep]) (fun i hi => setModel_mem m l _ i hi)
  rw [hs, modelSelect, h1]
  exact ⟨fun ms hm => consulted_all ask l h2 hm, fun hf => consulted_total ask l h2 hf⟩

/-- C84 refuted for a learner given to two models: `select` of the first one uses the second one only. -/
theorem C84_shared_counterexample (before : List AttachOp) (m₁ m₂ : Nat) (hm : m₁ ≠ m₂) (l : LearnerTree) (hf : SamplesFit l)
    (ask : Nat → Option Bool) :
    ∃ ms, modelSelect (attachRun (before ++ [.newModel m₁ (some l), .newModel m₂ (some l)])) ask m₁ = .ok ms ∧
      ms ≠ [] ∧ (∀ x ∈ ms, x = m₂) ∧ m₁ ∉ ms := by
  have hs : attachRun (before ++ [.newModel m₁ (some l), .newModel m₂ (some l)]) =
      attachStep (attachStep (attachRun before) (.newModel m₁ (some l))) (.newModel m₂ (some l)) := by
    simp [attachRun]
  have hl : ∀ i ∈ treeParts l, (attachStep (attachStep (attachRun before) (.newModel m₁ (some l))) (.newModel m₂ (some l))).attrs i
      = some m₂ := fun i hi => setModel_mem m₂ l _ i hi
  obtain ⟨ms, h⟩ := consulted_total ask l hl hf
  obtain ⟨h1, h2⟩ := consulted_all ask l hl h
  refine ⟨ms, ?_, h2, h1, fun hc => hm (h1 _ hc)⟩
  rw [hs, modelSelect]
  have : (attachStep (attachStep (attachRun before) (.newModel m₁ (some l))) (.newModel m₂ (some l))).learnerOf m₁ = some l := by
    simp only [attachStep]
    rw [Function.update_of_ne hm, Function.update_self]
  rw [this]
  exact h

/-- C84, learners never attached: an object that is no part of any learner given to a model, nor of any on which `set_model` was
called, has no model to read; so has a learner with sub-learners, unless its identity is that of a part. -/
theorem C84_never_attached (ops : List AttachOp) (i : Nat)
    (h : ∀ op ∈ ops, match op with
      | .newModel _ none => True
      | .newModel _ (some l) => i ∉ treeParts l
      | .setModel l _ => i ∉ treeParts l) (b : Bool) (k2 : Mode2) (k3 : Mode3) (p a c : LearnerTree) (ask : Nat → Option Bool) :
    (attachRun ops).attrs i = none ∧
    (LearnerTree.simple i b).consulted (attachRun ops).attrs ask = .error .attributeError ∧
    (LearnerTree.two i k2 p a).modelOf (attachRun ops).attrs = .error .attributeError ∧
    (LearnerTree.three i k3 p a c).modelOf (attachRun ops).attrs = .error .attributeError := by
  have key : ∀ s : AttachState, s.attrs i = none → (ops.foldl attachStep s).attrs i = none := by
    induction ops with
    | nil => exact fun s hs => hs
    | cons op ops ih =>
      intro s hs
      rw [List.foldl_cons]
      refine ih (fun o ho => h o (by simp [ho])) _ ?_
      have ho := h op (by simp)
      cases op with
      | newModel m l =>
        cases l with
        | none => exact hs
        | some l => exact (setModel_not_mem m l _ i ho).trans hs
      | setModel l m => exact (setModel_not_mem m l _ i ho).trans hs
  have h0 : (attachRun ops).attrs i = none := key _ rfl
  refine ⟨h0, ?_, ?_, ?_⟩ <;> simp [LearnerTree.consulted, LearnerTree.modelOf, LearnerTree.id, h0]

/-- A model with a learner of two parts: the learner itself, 10, is not a part. -/
example : ∀ op ∈ [AttachOp.newModel 0 (some (.two 10 .both (.simple 11 true) (.simple 12 true)))], match op with
      | .newModel _ none => True
      | .newModel _ (some l) => 10 ∉ treeParts l
      | .setModel l _ => 10 ∉ treeParts l := by
  simp [treeParts]

/-- C84, error branches: a model without a learner cannot select; a learner taking samples needs a `pairwise_l` with the method
`unset_samples`, so that it can neither contain another learner with sub-learners there nor, say, a UCB learner. -/
theorem C84_errors (s : AttachState) (m : Nat) (ask : Nat → Option Bool) :
    (s.learnerOf m = none → modelSelect s ask m = .error .attributeError) ∧
    (∀ i p a, s.learnerOf m = some (.two i .sampling p a) → ¬ IsAcq p →
      modelSelect s ask m = .error .attributeError) ∧
    ∀ i p a c, s.learnerOf m = some (.three i .sampling p a c) ∨ s.learnerOf m = some (.three i .deciding p a c) → ¬ IsAcq p →
      modelSelect s ask m = .error .attributeError := by
  have key : ∀ p : LearnerTree, ¬ IsAcq p → p.needSamples = .error .attributeError := by
    intro p hp
    cases p with
    | simple i b =>
      cases b with
      | false => rfl
      | true => exact absurd ⟨i, rfl⟩ hp
    | two _ _ _ _ => rfl
    | three _ _ _ _ _ => rfl
  refine ⟨fun h => by rw [modelSelect, h], fun i p a h hp => ?_, fun i p a c h hp => ?_⟩
  · rw [modelSelect, h]
    simp only [LearnerTree.consulted, key p hp, inTurn]
  · rcases h with h | h <;>
    · rw [modelSelect, h]
      simp only [LearnerTree.consulted, key p hp, inTurn]

/-- C84, error branch: a learner that was never attached to a model cannot select, whatever its parts and its choices. -/
theorem C84_unattached (l : LearnerTree) (ask : Nat → Option Bool) :
    l.consulted (fun _ => none) ask = .error .attributeError := by
  have key : ∀ p : LearnerTree, p.needSamples = .ok [] ∨ p.needSamples = .error .attributeError := by
    intro p
    cases p with
    | simple i b => cases b <;> simp [LearnerTree.needSamples]
    | two _ _ _ _ => exact .inr rfl
    | three _ _ _ _ _ => exact .inr rfl
  induction l with
  | simple i b => rfl
  | two i mode p a hp ha =>
    cases mode with
    | sampling =>
      rcases key p with h | h <;> simp [LearnerTree.consulted, inTurn, h, LearnerTree.modelOf]
    | both => simp [LearnerTree.consulted, inTurn, hp]
    | one => simp [LearnerTree.consulted, hp, ha]
  | three i mode p a c hp ha hc =>
    cases mode with
    | sampling =>
      rcases key p with h | h <;> simp [LearnerTree.consulted, inTurn, h, LearnerTree.modelOf]
    | deciding =>
      rcases key p with h | h <;> simp [LearnerTree.consulted, inTurn, h, LearnerTree.modelOf]
    | one => simp [LearnerTree.consulted, hp, ha]

/-- C84: a learner that asks one of two parts uses the model of the part it chose and of no other; here the two parts are attached to
different models. -/
theorem C84_asked (h : ModelAttrs) (ask : Nat → Option Bool) (i x y mx my : Nat) (bx bz : Bool) (c : LearnerTree)
    (hx : h x = some mx) (hy : h y = some my) :
    (ask i = some true →
      (LearnerTree.two i .one (.simple x bx) (.simple y bz)).consulted h ask = .ok [my] ∧
      (LearnerTree.three i .one (.simple x bx) (.simple y bz) c).consulted h ask = .ok [my]) ∧
    (ask i ≠ some true →
      (LearnerTree.two i .one (.simple x bx) (.simple y bz)).consulted h ask = .ok [mx] ∧
      (LearnerTree.three i .one (.simple x bx) (.simple y bz) c).consulted h ask = .ok [mx]) := by
  constructor <;> intro ha <;>
    simp [LearnerTree.consulted, LearnerTree.modelOf, LearnerTree.id, ha, hx, hy]

example : (LearnerTree.two 0 .one (.simple 1 true) (.simple 2 false)).consulted
    (fun n => if n = 1 then some 10 else if n = 2 then some 20 else none) (fun _ => some true) = .ok [20] := by
  decide +kernel

/-- Two models with a learner each, of two and of three parts. -/
example : modelSelect (attachRun [.newModel 0 (some (.two 10 .sampling (.simple 11 true) (.simple 12 true))),
      .newModel 1 (some (.three 20 .deciding (.simple 21 true) (.simple 22 false) (.simple 23 true)))])
    (fun _ => some true) 0 = .ok [0, 0, 0] ∧
    modelSelect (attachRun [.newModel 0 (some (.two 10 .sampling (.simple 11 true) (.simple 12 true))),
      .newModel 1 (some (.three 20 .deciding (.simple 21 true) (.simple 22 false) (.simple 23 true)))])
    (fun _ => some true) 1 = .ok [1, 1, 1, 1] := by
  decide +kernel

/-- Sharing one part is enough: the first model uses both. -/
example : modelSelect (attachRun [.newModel 0 (some (.two 10 .both (.simple 11 true) (.simple 12 true))),
      .newModel 1 (some (.simple 12 true))]) (fun _ => none) 0 = .ok [0, 1] := by
  decide +kernel

end C84

section C85
variable {β : Type}

/-- From a flag that is set, or a cache that is present. -/
theorem beliefCalls_present {kind : BeliefModel} {trained : Bool} {belief : β} (cs : List BeliefCall) (s : BeliefCache β)
    (hs : s.first = true ∨ s.cache = some belief) {bs : List (Option β)}
    (h : (beliefCalls kind trained belief cs s).2 = .ok bs) :
    bs.length = cs.length ∧ ∀ (j : Nat) b, bs[j]? = some b →
      (b = some belief ∨ b = none ∧ trained = false ∧ cs[j]? = some .greedy) := by
  induction cs generalizing s bs with
  | nil =>
    simp only [beliefCalls, Except.ok.injEq] at h
    subst h
    simp
  | cons c cs ih =>
    have step : ∀ s' b, beliefCall kind trained belief c s = (s', .ok b) →
        (s'.first = true ∨ s'.cache = some belief) ∧
        (b = some belief ∨ b = none ∧ trained = false ∧ c = .greedy) := by
      intro s' b hb
      rw [beliefCall] at hb
      split_ifs at hb with hg
      · simp only [Prod.mk.injEq, Except.ok.injEq] at hb
        obtain ⟨rfl, rfl⟩ := hb
        exact ⟨hs, .inr ⟨rfl, hg.2, hg.1⟩⟩
      · simp only [Prod.mk.injEq] at hb
        obtain ⟨h1, h2⟩ := hb
        rw [getBelief] at h1 h2
        split_ifs at h1 h2 with hf
        · cases kind <;> simp [computeBelief, Except.map] at h1 h2
          subst h1 h2
          simp
        · have hc := hs.resolve_left hf
          simp only [hc, readBelief, Except.map, Except.ok.injEq] at h1 h2
          subst h1 h2
          exact ⟨.inr hc, .inl rfl⟩
    rw [beliefCalls] at h
    cases hb : beliefCall kind trained belief c s with
    | mk s' r =>
      rw [hb] at h
      cases r with
      | error e => simp at h
      | ok b =>
        obtain ⟨h1, h2⟩ := step s' b hb
        simp only at h
        cases hr : beliefCalls kind trained belief cs s' with
        | mk s'' r =>
          rw [hr] at h
          cases r with
          | error e => simp at h
          | ok bs' =>
            simp only [Except.ok.injEq] at h
            subst h
            obtain ⟨i1, i2⟩ := ih s' h1 (bs := bs') (by rw [hr])
            refine ⟨by simp [i1], fun j b' hj => ?_⟩
            cases j with
            | zero =>
              simp only [List.getElem?_cons_zero, Option.some.injEq] at hj
              subst hj
              simpa using h2
            | succ j => simpa using i2 j b' (by simpa using hj)

/-- The belief is computed at most once after the flag was set, and not at all afterwards. -/
theorem beliefCalls_count (kind : BeliefModel) (trained : Bool) (belief : β) (cs : List BeliefCall) (s : BeliefCache β) :
    (beliefCalls kind trained belief cs s).1.computed ≤ s.computed + if s.first then 1 else 0 := by
  have step : ∀ (c : BeliefCall) (s : BeliefCache β),
      (beliefCall kind trained belief c s).1 = s ∨
      (beliefCall kind trained belief c s).1 = ⟨false, some belief, s.computed + 1⟩ ∧ s.first = true := by
    intro c s
    rw [beliefCall]
    split_ifs
    · left; rfl
    · simp only
      rw [getBelief]
      split_ifs with hf
      · cases kind <;> simp [computeBelief, hf]
      · left; rfl
  induction cs generalizing s with
  | nil => simp [beliefCalls]
  | cons c cs ih =>
    have h1 : ∀ s', (beliefCalls kind trained belief cs s').1.computed ≤ s'.computed + if s'.first then 1 else 0 := ih
    rw [beliefCalls]
    cases hb : beliefCall kind trained belief c s with
    | mk s' r =>
      have hs : s'.computed + (if s'.first then 1 else 0) ≤ s.computed + if s.first then 1 else 0 := by
        rcases step c s with h | ⟨h, hf⟩
        · rw [hb] at h; simp only at h; rw [h]
        · rw [hb] at h; simp only at h; rw [h]; simp [hf]
      cases r with
      | error e => simp only; exact le_trans (by omega) hs
      | ok b =>
        simp only
        cases hr : beliefCalls kind trained belief cs s' with
        | mk s'' r =>
          have := h1 s'
          rw [hr] at this
          cases r <;> exact le_trans this hs

/-- C85: whatever the learner was used for before, also with exceptions and direct calls, every query of a completed `select` that uses a
belief about the best candidate uses the one of the present model and candidates; the only queries without one are those drawn at random for
an untrained model; and the belief is computed at most once. -/
theorem C85_present (history : List (BeliefOp β)) (kind : BeliefModel) (trained : Bool) (belief : β) (cs : List BeliefCall) :
    (∀ bs, (beliefSelect kind trained belief cs (history.foldl beliefStep BeliefCache.init)).2 = .ok bs →
      bs.length = cs.length ∧ ∀ (j : Nat) b, bs[j]? = some b →
        (b = some belief ∨ b = none ∧ trained = false ∧ cs[j]? = some .greedy)) ∧
    (beliefSelect kind trained belief cs (history.foldl beliefStep BeliefCache.init)).1.computed ≤
      (history.foldl beliefStep BeliefCache.init).computed + 1 :=
  ⟨fun _ hb => beliefCalls_present cs _ (.inl rfl) hb, by
    simpa [beliefSelect] using beliefCalls_count kind trained belief cs { history.foldl beliefStep BeliefCache.init with first := true }⟩

/-- C85: with a `PreferenceGP` no exception comes from the belief. -/
theorem C85_gp (s : BeliefCache β) (trained : Bool) (belief : β) (cs : List BeliefCall) :
    ∃ bs, (beliefSelect .gp trained belief cs s).2 = .ok bs := by
  have key : ∀ (cs : List BeliefCall) (s : BeliefCache β), (s.first = true ∨ s.cache ≠ none) →
      ∃ bs, (beliefCalls .gp trained belief cs s).2 = .ok bs := by
    intro cs
    induction cs with
    | nil => intro s _; exact ⟨[], rfl⟩
    | cons c cs ih =>
      intro s hs
      have step : ∃ s' b, beliefCall .gp trained belief c s = (s', .ok b) ∧ (s'.first = true ∨ s'.cache ≠ none) := by
        rw [beliefCall]
        split_ifs with hg
        · exact ⟨s, none, rfl, hs⟩
        · rw [getBelief]
          split_ifs with hf
          · exact ⟨⟨false, some belief, s.computed + 1⟩, some belief, rfl, .inr (by simp)⟩
          · have hc := hs.resolve_left hf
            cases hcc : s.cache with
            | none => exact absurd hcc hc
            | some b => exact ⟨s, some b, rfl, .inr hc⟩
      obtain ⟨s', b, h1, h2⟩ := step
      obtain ⟨bs, h3⟩ := ih s' h2
      rw [beliefCalls, h1]
      simp only
      cases hr : beliefCalls .gp trained belief cs s' with
      | mk s'' r =>
        rw [hr] at h3
        simp only at h3
        subst h3
        exact ⟨b :: bs, rfl⟩
  exact key cs _ (.inl rfl)

/-- C85 refuted for the other models: every `select` that needs a belief raises, `TypeError` for a `PreferenceLinear` and
`UnboundLocalError` otherwise, whatever the learner did before. -/
theorem C85_linear_counterexample (s : BeliefCache β) (kind : BeliefModel) (hk : kind ≠ .gp) (trained : Bool) (belief : β)
    (cs : List BeliefCall) (hc : .pair ∈ cs ∨ trained = true ∧ cs ≠ []) :
    (beliefSelect kind trained belief cs s).2 = .error (if kind = .linear then .typeError else .unboundLocal) := by
  have hg : ∀ s : BeliefCache β, s.first = true →
      getBelief kind belief s = (s, .error (if kind = .linear then .typeError else .unboundLocal)) := by
    intro s hs
    rw [getBelief, if_pos hs]
    cases kind
    · exact absurd rfl hk
    · rfl
    · rfl
  have key : ∀ (cs : List BeliefCall) (s : BeliefCache β), s.first = true → (.pair ∈ cs ∨ trained = true ∧ cs ≠ []) →
      (beliefCalls kind trained belief cs s).2 = .error (if kind = .linear then .typeError else .unboundLocal) := by
    intro cs
    induction cs with
    | nil => intro s _ h; simp at h
    | cons c cs ih =>
      intro s hs h
      rw [beliefCalls]
      cases c with
      | pair => simp [beliefCall, hg s hs, Except.map]
      | greedy =>
        cases trained with
        | true => simp [beliefCall, hg s hs, Except.map]
        | false =>
          simp only [beliefCall, and_self, if_true]
          have := ih s hs (by simpa using h)
          cases hr : beliefCalls kind false belief cs s with
          | mk s'' r =>
            rw [hr] at this
            simp only at this
            subst this
            rfl
  exact key cs _ rfl hc

/-- C85 refuted for direct calls of `select_greedy` (without `select`): after a `select` with one belief, such a call uses that belief, whatever
the present one is. -/
theorem C85_direct_counterexample (s : BeliefCache β) (old new : β) (kind : BeliefModel) :
    (beliefCall kind true new .greedy (beliefSelect .gp true old [.greedy] s).1).2 = .ok (some old) := by
  simp [beliefSelect, beliefCalls, beliefCall, getBelief, computeBelief, readBelief, Except.map]

/-- C85: likewise in a history: whatever happened before, a greedy call outside `select` uses the belief the last `select`
computed, and computes none. -/
theorem C85_direct_history (history : List (BeliefOp β)) (old new : β) (kind : BeliefModel) :
    let s := (history ++ [BeliefOp.select .gp true old [.greedy]]).foldl beliefStep BeliefCache.init
    (beliefCall kind true new .greedy s).2 = .ok (some old) ∧ (beliefCall kind true new .greedy s).1.computed = s.computed ∧
    s.computed = (history.foldl beliefStep BeliefCache.init).computed + 1 := by
  simp [beliefStep, beliefSelect, beliefCalls, beliefCall, getBelief, computeBelief, readBelief, Except.map]

/-- C85: on a learner just constructed a direct call computes the belief too, for a GP model. -/
theorem C85_first (trained : Bool) (belief : β) (c : BeliefCall) (h : c = .pair ∨ trained = true) :
    (beliefCall .gp trained belief c BeliefCache.init).2 = .ok (some belief) ∧
    (beliefCall .gp trained belief c BeliefCache.init).1.computed = 1 := by
  rcases h with rfl | rfl
  · simp [beliefCall, getBelief, BeliefCache.init, computeBelief, Except.map]
  · cases c <;> simp [beliefCall, getBelief, BeliefCache.init, computeBelief, Except.map]

/-- A history with an exception and a direct call before. -/
example : (beliefSelect .gp true 7 [.pair, .greedy]
      ([.select .linear true 1 [.pair], .select .gp true 2 [.pair, .greedy], .direct .gp true 3 .greedy].foldl beliefStep
        BeliefCache.init)).2 = .ok [some 7, some 7] := by
  decide +kernel

end C85

end Lop.Props
