import Verif.Spec.ProbitCache
import Mathlib.Tactic.FieldSimp
import Mathlib.Tactic.Ring
import Mathlib.Tactic.NormNum

/-! # C91: a probit computes with the scale it reports -/

namespace Lop.Props

open Lop Lop.Spec

private lemma sqrt_two_ne : Real.sqrt 2 ≠ 0 := by
  rw [Real.sqrt_ne_zero'] <;> norm_num

private lemma recip_zero {s : ℝ} (h : s = 0) : recipOpt (s * Real.sqrt 2) = none := by
  simp [recipOpt, h]

private lemma recip_ne {s : ℝ} (h : s ≠ 0) : recipOpt (s * Real.sqrt 2) = some (1 / (s * Real.sqrt 2)) := by
  simp [recipOpt, h]

private lemma sq_recip {s : ℝ} : (1 / (s * Real.sqrt 2)) ^ 2 = 1 / (2 * s ^ 2) := by
  rw [div_pow, mul_pow, Real.sq_sqrt (by norm_num : (0 : ℝ) ≤ 2)]
  ring

private lemma rel_setSigma (p : RelScale) (s : ℝ) : RelCoherent (p.setSigma s) := by
  constructor
  · intro h
    have h' : s ≠ 0 := h
    refine ⟨fun n F y => ?_, ?_⟩
    · simp only [RelScale.zk, RelScale.setSigma, recip_ne h', Option.map_some, standardised]
      congr 1
      have := sqrt_two_ne
      field_simp
    · simp only [RelScale.setSigma, recip_ne h', Option.map_some, sq_recip]
  · intro h
    have h' : s = 0 := h
    simp [RelScale.zk, RelScale.setSigma, recip_zero h']

private lemma rel_apply (p : RelScale) (hp : RelCoherent p) (c : ScaleCall) :
    RelCoherent (relApply p c) ∧ (relApply p c).optimize = p.optimize ∧
      (relApply p c).sigma = relScaleAfter p.optimize p.sigma c := by
  cases c with
  | setSigma s => exact ⟨rel_setSigma p s, rfl, rfl⟩
  | setV v => exact ⟨hp, rfl, rfl⟩
  | setHyper x =>
    cases x with
    | nil => cases ho : p.optimize <;> simp [relApply, RelScale.setHyper, ho, relScaleAfter, hp]
    | cons s t =>
      cases ho : p.optimize
      · simp [relApply, RelScale.setHyper, ho, relScaleAfter, hp]
      · simp only [relApply, RelScale.setHyper, ho, relScaleAfter, if_true]
        exact ⟨rel_setSigma p s, ho, rfl⟩

/-- C91 for pairwise labels: after the constructor and any sequence of method calls (also ones that
raise) the scale is the one set last, and the probit computes with it: every standardised difference
and the factor of the Hessian are those of the reported scale. -/
theorem C91_pair (s : ℝ) (optimize : Bool) (cs : List ScaleCall) :
    RelCoherent (cs.foldl relApply (RelScale.init s optimize)) ∧
      (cs.foldl relApply (RelScale.init s optimize)).sigma = cs.foldl (relScaleAfter optimize) s := by
  have key : ∀ (cs : List ScaleCall) (p : RelScale), RelCoherent p →
      RelCoherent (cs.foldl relApply p) ∧
        (cs.foldl relApply p).sigma = cs.foldl (relScaleAfter p.optimize) p.sigma := by
    intro cs
    induction cs with
    | nil => exact fun p hp => ⟨hp, rfl⟩
    | cons c cs ih =>
      intro p hp
      obtain ⟨h1, h2, h3⟩ := rel_apply p hp c
      have := ih _ h1
      rw [h2, h3] at this
      exact this
  exact key cs _ (rel_setSigma _ s)

private lemma abs_setSigma (p : AbsScale) (s : ℝ) : AbsCoherent (p.setSigma s) := by
  constructor
  · intro h
    have h' : s ≠ 0 := h
    refine ⟨fun eps f => ?_, ?_⟩
    · simp only [AbsScale.mean, AbsScale.setSigma, recip_ne h', Option.map_some, npClip]
      have : f * (1 / (s * Real.sqrt 2)) = f / (Real.sqrt 2 * s) := by
        have := sqrt_two_ne
        field_simp
      rw [this, min_comm, max_comm]
    · simp only [AbsScale.setSigma, recip_ne h', Option.map_some, sq_recip]
  · intro h
    have h' : s = 0 := h
    simp [AbsScale.mean, AbsScale.setSigma, recip_zero h']

private lemma abs_apply (p : AbsScale) (hp : AbsCoherent p) (c : ScaleCall) :
    AbsCoherent (absApply p c) ∧ (absApply p c).optimize = p.optimize ∧
      (absApply p c).vOnly = p.vOnly ∧
      ((absApply p c).sigma, (absApply p c).v) = absScaleAfter p.optimize p.vOnly (p.sigma, p.v) c := by
  have hv : ∀ v, AbsCoherent (p.setV v) := fun v => hp
  cases c with
  | setSigma s => exact ⟨abs_setSigma p s, rfl, rfl, rfl⟩
  | setV v => exact ⟨hv v, rfl, rfl, rfl⟩
  | setHyper x =>
    cases ho : p.optimize <;> cases hw : p.vOnly <;> rcases x with _ | ⟨a, _ | ⟨b, t⟩⟩ <;>
      simp only [absApply, AbsScale.setHyper, ho, hw, absScaleAfter, if_true, if_false,
        Bool.false_eq_true] <;>
      refine ⟨?_, ?_, ?_, ?_⟩ <;>
      first
      | exact hp
      | exact hv _
      | exact abs_setSigma _ _
      | simp [AbsScale.setV, AbsScale.setSigma, ho, hw]

/-- C91 for absolute ratings: after the constructor and any sequence of method calls scale and
precision are those set last, and the mean rating and the stored factor are those of the reported
scale. -/
theorem C91_rating (s v : ℝ) (optimize vOnly : Bool) (cs : List ScaleCall) :
    AbsCoherent (cs.foldl absApply (AbsScale.init s v optimize vOnly)) ∧
      ((cs.foldl absApply (AbsScale.init s v optimize vOnly)).sigma,
        (cs.foldl absApply (AbsScale.init s v optimize vOnly)).v) =
        cs.foldl (absScaleAfter optimize vOnly) (s, v) := by
  have key : ∀ (cs : List ScaleCall) (p : AbsScale), AbsCoherent p →
      AbsCoherent (cs.foldl absApply p) ∧
        ((cs.foldl absApply p).sigma, (cs.foldl absApply p).v) =
          cs.foldl (absScaleAfter p.optimize p.vOnly) (p.sigma, p.v) := by
    intro cs
    induction cs with
    | nil => exact fun p hp => ⟨hp, rfl⟩
    | cons c cs ih =>
      intro p hp
      obtain ⟨h1, h2, h3, h4⟩ := abs_apply p hp c
      have := ih _ h1
      rw [h2, h3, h4] at this
      exact this
  exact key cs (AbsScale.init s v optimize vOnly)
    (abs_setSigma ⟨s, none, none, v, optimize, vOnly⟩ s)

/-- C91 for ordinal ratings, partial: `set_sigma` leaves a coherent probit whenever it returns; what
is missing is the call that raises. -/
theorem C91_ordinal_partial (p : OrdScale) (isNumpy : Bool) (s : ℝ)
    (h : (p.setSigma isNumpy s).2 = none) :
    OrdCoherent (p.setSigma isNumpy s).1 ∧ (p.setSigma isNumpy s).1.sigma = s := by
  by_cases hs : s = 0 ∧ isNumpy = false
  · simp [OrdScale.setSigma, hs] at h
  · simp only [OrdScale.setSigma, if_neg hs]
    refine ⟨⟨fun h0 => ?_, fun h0 => ?_⟩, trivial⟩
    · have h0' : s ≠ 0 := h0
      refine ⟨fun b f => ?_, ?_⟩
      · simp only [OrdScale.zk, recipOpt, if_neg h0', Option.map_some]
        congr 1
        ring
      · simp only [recipOpt, if_neg h0', Option.map_some]
        congr 1
        rw [div_pow, one_pow]
    · have h0' : s = 0 := h0
      simp [OrdScale.zk, recipOpt, h0']

/-- C91 fails for the ordinal probit when `set_sigma(0)` raises: the reported scale is 0, but the
probit goes on computing with the old one. -/
theorem C91_ordinal_zero_false (p : OrdScale) (hp : OrdCoherent p) (h0 : p.sigma ≠ 0) :
    (p.setSigma false 0).2 = some .zeroDivision ∧ (p.setSigma false 0).1.sigma = 0 ∧
      (∀ b f, (p.setSigma false 0).1.zk b f = some ((b - f) / p.sigma)) ∧
      ¬ OrdCoherent (p.setSigma false 0).1 := by
  have h : p.setSigma false 0 = ({ p with sigma := 0 }, some .zeroDivision) := by
    simp [OrdScale.setSigma]
  rw [h]
  refine ⟨rfl, rfl, fun b f => (hp.1 h0).1 b f, fun hc => ?_⟩
  have h1 := (hc.2 rfl).1 0 0
  have h2 := (hp.1 h0).1 0 0
  have h3 : OrdScale.zk { p with sigma := 0 } 0 0 = p.zk 0 0 := rfl
  rw [h3, h2] at h1
  simp at h1

/-- C91 fails for the assignment in `examples/models/pref_gp.py`: assigning the attribute changes the
scale the probit reports (and passes to the hyper-parameter code) but none of the numbers it computes,
so with any other positive scale it no longer computes with the scale it reports. -/
theorem C91_assign_false (p : RelScale) (hp : RelCoherent p) (h0 : 0 < p.sigma) (s : ℝ) (hs : 0 < s)
    (hne : s ≠ p.sigma) :
    (p.assignSigma s).sigma = s ∧
      (∀ (n : Nat) (F : Fin n → ℝ) (y : IPair n),
        (p.assignSigma s).zk F y = some (standardised p.sigma F y)) ∧
      ¬ RelCoherent (p.assignSigma s) := by
  refine ⟨rfl, fun n F y => (hp.1 h0.ne').1 n F y, fun hc => ?_⟩
  have h1 := (hc.1 hs.ne').2
  have h2 := (hp.1 h0.ne').2
  have h3 : (p.assignSigma s).i2var = p.i2var := rfl
  have h4 : (p.assignSigma s).sigma = s := rfl
  rw [h3, h2, h4] at h1
  have h5 : 1 / (2 * p.sigma ^ 2) = 1 / (2 * s ^ 2) := Option.some.inj h1
  have h6 : s ^ 2 = p.sigma ^ 2 := by
    have hs2 := hs.ne'
    have hp2 := h0.ne'
    field_simp at h5
    linarith
  exact hne ((sq_eq_sq₀ hs.le h0.le).1 h6)

/-- C91 (vectors): a vector that is too short is refused and changes nothing, longer ones are accepted; a probit that
is not optimised accepts every vector, ignores it and reports none. -/
theorem C91_vectors (p : RelScale) (q : AbsScale) (x : List ℝ) :
    (p.optimize = true → (x.length < 1 → p.setHyper x = (p, some .indexError)) ∧
        (1 ≤ x.length → (p.setHyper x).2 = none) ∧ p.getHyper = [p.sigma]) ∧
      (p.optimize = false → p.setHyper x = (p, none) ∧ p.getHyper = []) ∧
      (q.optimize = true → (x.length < (if q.vOnly then 1 else 2) → q.setHyper x = (q, some .indexError)) ∧
        ((if q.vOnly then 1 else 2) ≤ x.length → (q.setHyper x).2 = none)) ∧
      (q.optimize = false → q.setHyper x = (q, none)) := by
  refine ⟨fun h => ⟨fun hx => ?_, fun hx => ?_, by simp [RelScale.getHyper, h]⟩, fun h => ?_, fun h => ⟨?_, ?_⟩, fun h => ?_⟩
  · match x, hx with
    | [], _ => simp [RelScale.setHyper, h]
  · match x, hx with
    | _ :: _, _ => simp [RelScale.setHyper, h]
  · simp [RelScale.setHyper, RelScale.getHyper, h]
  · cases hv : q.vOnly
    · match x with
      | [] => simp [AbsScale.setHyper, h, hv]
      | [_] => simp [AbsScale.setHyper, h, hv]
      | _ :: _ :: _ => simp
    · match x with
      | [] => simp [AbsScale.setHyper, h, hv]
      | _ :: _ => simp
  · cases hv : q.vOnly
    · match x with
      | [] => simp
      | [_] => simp
      | _ :: _ :: _ => simp [AbsScale.setHyper, h, hv]
    · match x with
      | [] => simp
      | _ :: _ => simp [AbsScale.setHyper, h, hv]
  · simp [AbsScale.setHyper, h]

/-- Writing the reported hyper-parameters back repairs the probit exactly if its parameters are
optimised at all. -/
theorem C91_write_back (p : RelScale) (s : ℝ) :
    (p.optimize = true → RelCoherent (((p.assignSigma s).setHyper (p.assignSigma s).getHyper).1) ∧
        (((p.assignSigma s).setHyper (p.assignSigma s).getHyper).1).sigma = s) ∧
      (p.optimize = false →
        ((p.assignSigma s).setHyper (p.assignSigma s).getHyper).1 = p.assignSigma s) := by
  constructor
  · intro h
    have h' : (p.assignSigma s).optimize = true := h
    simp only [RelScale.getHyper, h', if_true, RelScale.setHyper]
    exact ⟨rel_setSigma _ _, rfl⟩
  · intro h
    have h' : (p.assignSigma s).optimize = false := h
    simp [RelScale.setHyper, h']

/-! Examples -/

/-- The model of the example script: the probit of a new model has scale 0.5; `--sigma 1.0` (the
default) is then reported but not used. -/
example : RelCoherent (RelScale.init (1 / 2) true) ∧ 0 < (RelScale.init (1 / 2) true).sigma ∧
    (1 : ℝ) ≠ (RelScale.init (1 / 2) true).sigma :=
  ⟨(C91_pair (1 / 2) true []).1, by norm_num [RelScale.init, RelScale.setSigma],
    by norm_num [RelScale.init, RelScale.setSigma]⟩

example : ([ScaleCall.setHyper [3], .setSigma 2, .setHyper []].foldl relApply
    (RelScale.init 1 true)).sigma = 2 := by
  rw [(C91_pair 1 true _).2]; simp [relScaleAfter]

example : ([ScaleCall.setHyper [3, 7], .setV 2].foldl absApply
    (AbsScale.init 1 80 true false)).sigma = 3 := by
  have := (C91_rating 1 80 true false [ScaleCall.setHyper [3, 7], .setV 2]).2
  simpa [absScaleAfter] using congrArg Prod.fst this

example : OrdCoherent ((⟨1, none, none⟩ : OrdScale).setSigma false 2).1 :=
  (C91_ordinal_partial _ _ _ (by simp [OrdScale.setSigma])).1

end Lop.Props
