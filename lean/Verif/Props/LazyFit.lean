import Verif.Spec.LazyFit
import Mathlib.Tactic.Basic

/-! # C67: predictions are made from a fit of the present data -/

namespace Lop.Props

open Lop Lop.Spec

variable {X P O R H : Type}

/-- C67: after any history of `add`, `reset`, `optimize` and `predict` calls a prediction uses a fit of
exactly the present training data, labels and hyper-parameters (the prior when there is none). Missing:
`set_hyper` and `determine_query_type`, see the two counterexamples. -/
theorem C67_current_partial (hopt : X → FitLabels P O R → H → H) (h₀ : H)
    (ops : List (LazyOp X P O R H)) (hops : ∀ o ∈ ops, KeepsHyper o) :
    ∃ m' fit, (ops.foldl (lazyStep hopt) (.fresh h₀)).predict hopt = .ok (m', fit) ∧
      FitCurrent m' fit ∧ m'.x = (ops.foldl (lazyStep hopt) (.fresh h₀)).x ∧
      m'.y = (ops.foldl (lazyStep hopt) (.fresh h₀)).y := by
  have hinv : ∀ (l : List (LazyOp X P O R H)) (m : LazyGP X P O R H), (∀ o ∈ l, KeepsHyper o) →
      (m.optimized = true → ∀ x, m.x = some x → m.fit = some (x, m.y, m.hyper)) →
      ((l.foldl (lazyStep hopt) m).optimized = true →
        ∀ x, (l.foldl (lazyStep hopt) m).x = some x →
          (l.foldl (lazyStep hopt) m).fit =
            some (x, (l.foldl (lazyStep hopt) m).y, (l.foldl (lazyStep hopt) m).hyper)) := by
    intro l
    induction l with
    | nil => intro m _ h; exact h
    | cons o l ih =>
      intro m hk h
      refine ih _ (fun o ho => hk o (List.mem_cons_of_mem _ ho)) ?_
      have hko := hk o List.mem_cons_self
      cases o with
      | add x y => intro hopt' ; simp [lazyStep, LazyGP.add] at hopt'
      | reset => intro _ x hx; simp [lazyStep, LazyGP.reset] at hx
      | setHyper h' => exact absurd hko (by simp [KeepsHyper])
      | optimize =>
        obtain ⟨mx, my, mh, mo, mf⟩ := m
        cases mx <;> simp_all [lazyStep, LazyGP.optimize]
      | predict =>
        obtain ⟨mx, my, mh, mo, mf⟩ := m
        cases mx <;> cases mo <;> simp_all [lazyStep, LazyGP.optimize, LazyGP.predict]
  have hf := hinv ops (.fresh h₀) hops (by simp [LazyGP.fresh])
  generalize ops.foldl (lazyStep hopt) (.fresh h₀) = m at hf
  obtain ⟨mx, my, mh, mo, mf⟩ := m
  cases mx with
  | none => exact ⟨_, none, rfl, rfl, rfl, rfl⟩
  | some x =>
    cases mo with
    | true =>
      refine ⟨_, mf, rfl, ?_, rfl, rfl⟩
      exact hf rfl x rfl
    | false => exact ⟨_, _, rfl, rfl, rfl, rfl⟩

example : (∀ o ∈ ([.add 1 ⟨some 1, none, none⟩, .predict, .reset, .add 2 ⟨none, none, some 3⟩,
    .optimize] : List (LazyOp Nat Nat Nat Nat Nat)), KeepsHyper o) := by
  simp [KeepsHyper]

/-- C67: after `set_hyper` on a fitted model predictions still use the fit made with the old
hyper-parameters. -/
theorem C67_set_hyper_counterexample (hopt : X → FitLabels P O R → H → H) (x : X) (y : FitLabels P O R)
    (h₀ h₁ : H) (hne : hopt x y h₀ ≠ h₁) :
    ∃ m' fit, (([.add x y, .predict, .setHyper h₁] : List (LazyOp X P O R H)).foldl (lazyStep hopt)
      (.fresh h₀)).predict hopt = .ok (m', fit) ∧ ¬ FitCurrent m' fit := by
  refine ⟨_, _, rfl, ?_⟩
  simp only [FitCurrent, LazyGP.setHyper, lazyStep, LazyGP.add, LazyGP.fresh, LazyGP.predict,
    LazyGP.optimize, List.foldl_cons, List.foldl_nil]
  simpa using hne

/-- C67, `determine_query_type`: it gives the labels back and (when it returns) restores `M`. -/
theorem C67_determine_restores (hopt : X → FitLabels P O R → H → H) (kind : AlignKind) (better : Bool)
    (e : AlignEnv X P O R H) :
    (determineQueryTypeFit hopt kind better e).1.model.x = e.model.x ∧
    (determineQueryTypeFit hopt kind better e).1.model.y = e.model.y ∧
    (∀ b, (determineQueryTypeFit hopt kind better e).2 = .ok b →
      b = better ∧ (determineQueryTypeFit hopt kind better e).1.M = e.M) := by
  obtain ⟨⟨x, ⟨yp, yo, yr⟩, h, o, f⟩, M⟩ := e
  cases x with
  | none => simp [determineQueryTypeFit]
  | some x =>
    cases o <;> cases kind <;>
      simp [determineQueryTypeFit, LazyGP.predict, LazyGP.optimize, alignImplemented, eq_comm]

/-- C67: after `determine_query_type` on a model with pair labels, every prediction (in particular those
made for the query selected next) uses a fit of the ratings alone, although the pair labels are still
part of the training data. -/
theorem C67_determine_counterexample (hopt : X → FitLabels P O R → H → H) (kind : AlignKind)
    (better : Bool) (e : AlignEnv X P O R H) (x : X) (hx : e.model.x = some x) (p : P)
    (hp : e.model.y.pref = some p) :
    ∃ m' fit, (determineQueryTypeFit hopt kind better e).1.model.predict hopt = .ok (m', fit) ∧
      m'.y.pref = some p ∧ (∃ h, fit = some (x, { e.model.y with pref := none }, h)) ∧
      ¬ FitCurrent m' fit := by
  obtain ⟨⟨x', ⟨yp, yo, yr⟩, h, o, f⟩, M⟩ := e
  simp only at hx hp
  subst hx hp
  cases o <;> cases kind <;>
    simp [determineQueryTypeFit, LazyGP.predict, LazyGP.optimize, alignImplemented, FitCurrent]

/-- C67: with the default alignment function (`rho`, also with `loglikelihood`) `determine_query_type`
never returns and leaves the sample count of the pair learner at 8000; with training data it raises
`NotImplementedError`. -/
theorem C67_determine_never_returns (hopt : X → FitLabels P O R → H → H) (kind : AlignKind)
    (hk : kind = .rho ∨ kind = .loglikelihood) (better : Bool) (e : AlignEnv X P O R H) :
    (∃ er, (determineQueryTypeFit hopt kind better e).2 = .error er ∧
        (e.model.x ≠ none → er = .notImplemented)) ∧
      (determineQueryTypeFit hopt kind better e).1.M = 8000 := by
  obtain ⟨⟨x, ⟨yp, yo, yr⟩, h, o, f⟩, M⟩ := e
  cases x with
  | none => simp [determineQueryTypeFit]
  | some x =>
    rcases hk with rfl | rfl <;> cases o <;>
      simp [determineQueryTypeFit, LazyGP.predict, LazyGP.optimize, alignImplemented]

/-- C67: with the implemented alignment functions it returns whenever there is training data. -/
theorem C67_determine_returns (hopt : X → FitLabels P O R → H → H) (kind : AlignKind)
    (hk : kind = .epic ∨ kind = .spearman ∨ kind = .one) (better : Bool) (e : AlignEnv X P O R H)
    (hx : e.model.x ≠ none) : (determineQueryTypeFit hopt kind better e).2 = .ok better := by
  obtain ⟨⟨x, ⟨yp, yo, yr⟩, h, o, f⟩, M⟩ := e
  cases x with
  | none => simp at hx
  | some x =>
    rcases hk with rfl | rfl | rfl <;> cases o <;>
      simp [determineQueryTypeFit, LazyGP.predict, LazyGP.optimize, alignImplemented]

/-- C67: without training data `optimize` and `determine_query_type` raise `AttributeError` (there is no array of points);
the training data stay empty and the sample count of the pair learner stays at 8000. -/
theorem C67_no_data_raises (hopt : X → FitLabels P O R → H → H) (kind : AlignKind) (better : Bool)
    (e : AlignEnv X P O R H) (hx : e.model.x = none) :
    e.model.optimize hopt = .error .attributeError ∧
      determineQueryTypeFit hopt kind better e = ({ e with M := 8000 }, .error .attributeError) := by
  obtain ⟨⟨x, y, h, o, f⟩, M⟩ := e
  simp only at hx
  subst hx
  exact ⟨rfl, rfl⟩

example : (⟨.fresh 0, 100⟩ : AlignEnv Nat Nat Nat Nat Nat).model.x = none := rfl

/-- C67: after a `reset` the training data are those of a new object, whatever happened before. -/
theorem C67_reset (hopt : X → FitLabels P O R → H → H) (h₀ : H) (ops ops' : List (LazyOp X P O R H)) :
    ((ops ++ .reset :: ops').foldl (lazyStep hopt) (.fresh h₀)).x = (ops'.foldl (lazyStep hopt) (.fresh h₀)).x ∧
      ((ops ++ .reset :: ops').foldl (lazyStep hopt) (.fresh h₀)).y =
        (ops'.foldl (lazyStep hopt) (.fresh h₀)).y := by
  have key : ∀ (l : List (LazyOp X P O R H)) (m m' : LazyGP X P O R H), m.x = m'.x → m.y = m'.y →
      (l.foldl (lazyStep hopt) m).x = (l.foldl (lazyStep hopt) m').x ∧
        (l.foldl (lazyStep hopt) m).y = (l.foldl (lazyStep hopt) m').y := by
    have data : ∀ (o : LazyOp X P O R H) (m : LazyGP X P O R H),
        (lazyStep hopt m o).x = (match o with | .add x _ => some x | .reset => none | _ => m.x) ∧
          (lazyStep hopt m o).y = (match o with | .add _ y => y | .reset => ⟨none, none, none⟩ | _ => m.y) := by
      intro o m
      obtain ⟨x, y, h, b, f⟩ := m
      cases o <;> cases x <;> cases b <;>
        simp [lazyStep, LazyGP.add, LazyGP.reset, LazyGP.optimize, LazyGP.predict, LazyGP.setHyper]
    intro l
    induction l with
    | nil => intro m m' h1 h2; exact ⟨h1, h2⟩
    | cons o l ih =>
      intro m m' h1 h2
      refine ih _ _ ?_ ?_
      · rw [(data o m).1, (data o m').1, h1]
      · rw [(data o m).2, (data o m').2, h2]
  rw [List.foldl_append, List.foldl_cons]
  exact key ops' _ _ rfl rfl

end Lop.Props
