import Verif.Proofs.Recommend
import Verif.Props.UcbBayes

/-! # C137: the candidates a `GP` recommends have the largest expected value -/

namespace Lop.Props

open Spec Matrix MeasureTheory ProbabilityTheory

variable {d n : Nat} {Ω : Type*} [mΩ : MeasurableSpace Ω] {μ : Measure Ω} [IsProbabilityMeasure μ]

/-- What `select` returns, as a rule. -/
private noncomputable def topRule (cov : CovFn d) {q : Nat} {turn : UcbTurn d} (h : q ≤ turn.cands.length) (st : GPState d) :
    Fin q → Fin turn.cands.length :=
  open Classical in
  if h' : ∃ c : Fin q → Fin turn.cands.length, gpSelectTop cov q turn st = .ok (List.ofFn fun j => (c j).val) ∧ Function.Injective c then h'.choose
  else Fin.castLE h

private lemma ofFn_val_inj {q m : Nat} {a b : Fin q → Fin m} (h : (List.ofFn fun j => (a j).val) = List.ofFn fun j => (b j).val) : a = b :=
  funext fun j => Fin.ext (congrFun (List.ofFn_injective h) j)

private lemma topRule_injective (cov : CovFn d) {q : Nat} {turn : UcbTurn d} (h : q ≤ turn.cands.length) (st : GPState d) :
    Function.Injective (topRule cov h st) := by
  unfold topRule
  split
  · rename_i h'
    exact h'.choose_spec.2
  · exact Fin.castLE_injective h

private lemma topRule_data {k : KExpr ℝ (Pt d)} (hok : AllLeaves (LeafOK (d = 1)) k) (hq : AllLeaves NoNoise k) {s : ℝ} (hs : 0 < s) {C : Finset (Pt d)}
    {q : Nat} (hq0 : 0 < q) {turn : UcbTurn d} (ht : TurnOK C q turn) (z : Nat → Pt d) (v : Nat → ℝ) (T : Nat) :
    gpSelectTop (kcov k) q turn (dataOf (fun _ => 0) z (fun _ => s) v T) =
        .ok (List.ofFn fun j => (topRule (kcov k) ht.enough (dataOf (fun _ => 0) z (fun _ => s) v T) j).val) ∧
      ∀ b : Fin q → Fin turn.cands.length, Function.Injective b →
        ∑ j, atMean (kcov k) (dataOf (fun _ => 0) z (fun _ => s) v T) (turn.cands.get (b j)) ≤
          ∑ j, atMean (kcov k) (dataOf (fun _ => 0) z (fun _ => s) v T)
            (turn.cands.get (topRule (kcov k) ht.enough (dataOf (fun _ => 0) z (fun _ => s) v T) j)) := by
  have hn : 0 < turn.cands.length := hq0.trans_le ht.enough
  obtain ⟨p, hp, hpm⟩ := (point_prediction hok hq z hs T).1 turn.cands.get hn v
  obtain ⟨c, hc, hinj, htop⟩ := select_top ht.ordL ht.ord hq0 ht.enough p.mu
  have hg : gpSelectTop (kcov k) q turn (dataOf (fun _ => 0) z (fun _ => s) v T) = .ok (List.ofFn fun j => (c j).val) := by
    simp only [gpSelectTop, hp, hc]
  have hr : topRule (kcov k) ht.enough (dataOf (fun _ => 0) z (fun _ => s) v T) = c := by
    have hex : ∃ c : Fin q → Fin turn.cands.length, gpSelectTop (kcov k) q turn (dataOf (fun _ => 0) z (fun _ => s) v T) =
        .ok (List.ofFn fun j => (c j).val) ∧ Function.Injective c := ⟨c, hg, hinj⟩
    unfold topRule
    rw [dif_pos hex]
    have := hex.choose_spec.1.symm.trans hg
    exact ofFn_val_inj (Except.ok.inj this)
  rw [hr]
  refine ⟨hg, fun b hb => ?_⟩
  simp only [← fun i => (hpm i).1]
  exact top_sum hinj htop hb

private lemma topRule_choice {k : KExpr ℝ (Pt d)} (hok : AllLeaves (LeafOK (d = 1)) k) (hq : AllLeaves NoNoise k) {s : ℝ} (hs : 0 < s) {C : Finset (Pt d)}
    {q : Nat} (hq0 : 0 < q) {turn : UcbTurn d} (ht : TurnOK C q turn) (T : Nat) :
    IsChoice (fun _ => s) T (topRule (kcov k) ht.enough) where
  different st := topRule_injective _ _ st
  event c z := by
    have hn : 0 < turn.cands.length := hq0.trans_le ht.enough
    obtain ⟨pred, hp, hm, -⟩ := data_prediction k hok hq (fun _ => 0) z (s := fun _ => s) (fun _ => hs) T turn.cands.get hn
    have e : {v : Nat → ℝ | dataOf (fun _ => 0) z (fun _ => s) v T ∈ {st | topRule (kcov k) ht.enough st = c}} =
        (fun v i => (pred v).mu i) ⁻¹' {w | learnerSelect (bestLearner turn.ordL (List.ofFn w)) false true none turn.ord (List.ofFn w) q ∅ ∅ =
          .ok (List.ofFn fun j => (c j).val)} := by
      ext v
      have h1 := (topRule_data hok hq hs hq0 ht z v T).1
      simp only [gpSelectTop, hp v] at h1
      simp only [Set.mem_setOf_eq, Set.mem_preimage]
      have h1' : learnerSelect (bestLearner turn.ordL (List.ofFn fun i => (pred v).mu i)) false true none turn.ord (List.ofFn fun i => (pred v).mu i) q ∅ ∅ =
          .ok (List.ofFn fun j => (topRule (kcov k) ht.enough (dataOf (fun _ => 0) z (fun _ => s) v T) j).val) := h1
      rw [h1']
      exact ⟨fun h => by rw [h], fun h => ofFn_val_inj (Except.ok.inj h)⟩
    rw [e]
    refine (measurable_pi_lambda _ hm) (order_measurable fun w w' hw h => ?_)
    rw [Set.mem_setOf_eq] at h ⊢
    rw [← h]
    exact (select_order turn.ordL turn.ord q hw).symm

private lemma best_data {k : KExpr ℝ (Pt d)} (hok : AllLeaves (LeafOK (d = 1)) k) (hq : AllLeaves NoNoise k) {s : ℝ} (hs : 0 < s)
    {cands : List (Pt d)} (hc : cands ≠ []) (z : Nat → Pt d) (v : Nat → ℝ) (T : Nat) :
    ∃ i : Fin cands.length, gpSelectBest (kcov k) cands (dataOf (fun _ => 0) z (fun _ => s) v T) = .ok i.val ∧
      ∀ j, atMean (kcov k) (dataOf (fun _ => 0) z (fun _ => s) v T) (cands.get j) ≤
        atMean (kcov k) (dataOf (fun _ => 0) z (fun _ => s) v T) (cands.get i) := by
  have hn : 0 < cands.length := List.length_pos_iff.2 hc
  obtain ⟨p, hp, hpm⟩ := (point_prediction hok hq z hs T).1 cands.get hn v
  obtain ⟨i, hi⟩ := npArgmax_isOk (l := List.ofFn p.mu) (by intro h; have := congrArg List.length h; simp at this; exact hc this)
  obtain ⟨m, h1, h2, -⟩ := npArgmax_spec hi
  have hin : i < cands.length := by
    have := List.getElem?_eq_some_iff.1 h1
    simpa using this.1
  refine ⟨⟨i, hin⟩, by simp only [gpSelectBest, hp, hi], fun j => ?_⟩
  rw [← (hpm j).1, ← (hpm ⟨i, hin⟩).1]
  have e : p.mu ⟨i, hin⟩ = m := by simpa [hin] using h1
  rw [e]
  exact h2 _ (List.mem_ofFn.2 ⟨j, rfl⟩)

section

variable {k : KExpr ℝ (Pt d)} (hok : AllLeaves (LeafOK (d = 1)) k) (hq : AllLeaves NoNoise k) {s : ℝ}
    (hs : 0 < s) {S : Finset (Pt d)} {pick : Nat → GPState d → Pt d} (hrule : IsRule (fun _ => 0) (fun _ => s) S pick)
    {F : Pt d → Ω → ℝ} (hFm : ∀ x, Measurable (F x)) (hF : IsRandomFunction μ k (fun _ => 0) F) {err : Nat → Ω → ℝ} (hem : ∀ t, Measurable (err t))
    (he : IsMeasurementError μ (fun _ => 0) F (fun _ => s) err)
    (hG : ∀ (T : Nat) (z : Nat → Pt d) (x : Pt d), HasGaussianLaw (fun ω => (fun _ : Fin 1 => F x ω, fun t : Fin T => F (z t) ω + err t ω)) μ)

include hok hq hs hrule hFm hF hem he hG

private lemma choice_value {st : Ω → Nat → GPState d} (hst : st = fun ω => activeRun (fun _ => 0) pick (fun y => F y ω) (fun _ => s) fun t => err t ω)
    (T : Nat) {q : Nat} {cands : List (Pt d)} {rule : GPState d → Fin q → Fin cands.length} (hr : IsChoice (fun _ => s) T rule) :
    Integrable (fun ω => ∑ j, F (cands.get (rule (st ω T) j)) ω) μ ∧
    Integrable (fun ω => ∑ j, atMean (kcov k) (st ω T) (cands.get (rule (st ω T) j))) μ ∧
      ∫ ω, ∑ j, F (cands.get (rule (st ω T) j)) ω ∂μ = ∫ ω, ∑ j, atMean (kcov k) (st ω T) (cands.get (rule (st ω T) j)) ∂μ := by
  have h := fun j : Fin q => rule_mean hok hq hs hrule hFm hF hem he hG hst T (y := rule) hr.event fun c => cands.get (c j)
  refine ⟨integrable_finsetSum _ fun j _ => (h j).1, integrable_finsetSum _ fun j _ => (h j).2.1, ?_⟩
  rw [integral_finsetSum _ fun j _ => (h j).1, integral_finsetSum _ fun j _ => (h j).2.1]
  exact Finset.sum_congr rfl fun j _ => (h j).2.2

/-- C137: a Gaussian function with the kernel as covariance has been learned actively, with any rule for choosing the measured points. `GP.select` with a
`BestLearner`, asked for `q` of any candidates, never raises and returns `q` different ones. The expected sum of the function's values there is
at least that of every other way to choose `q` different candidates by looking at the training data, and is the expected sum of the means
predicted for them. -/
theorem C137_top {C : Finset (Pt d)} {q : Nat} (hq0 : 0 < q) {turn : UcbTurn d} (ht : TurnOK C q turn) (T : Nat) :
    ∃ sel : Ω → Fin q → Fin turn.cands.length, (∀ ω, Function.Injective (sel ω)) ∧
      (∀ ω, gpSelectTop (kcov k) q turn (activeRun (fun _ => 0) pick (fun y => F y ω) (fun _ => s) (fun t => err t ω) T) =
        .ok (List.ofFn fun j => (sel ω j).val)) ∧
      Integrable (fun ω => ∑ j, F (turn.cands.get (sel ω j)) ω) μ ∧
      (∀ rule : GPState d → Fin q → Fin turn.cands.length, IsChoice (fun _ => s) T rule →
        Integrable (fun ω => ∑ j, F (turn.cands.get (rule (activeRun (fun _ => 0) pick (fun y => F y ω) (fun _ => s) (fun t => err t ω) T) j)) ω) μ ∧
        ∫ ω, ∑ j, F (turn.cands.get (rule (activeRun (fun _ => 0) pick (fun y => F y ω) (fun _ => s) (fun t => err t ω) T) j)) ω ∂μ ≤
          ∫ ω, ∑ j, F (turn.cands.get (sel ω j)) ω ∂μ) ∧
      ∀ pred : Ω → GPPred turn.cands.length,
        (∀ ω, gpRegress (kcov k) (fun _ => 0) (activeRun (fun _ => 0) pick (fun y => F y ω) (fun _ => s) (fun t => err t ω) T) turn.cands.get =
          .ok (pred ω)) →
        ∫ ω, ∑ j, F (turn.cands.get (sel ω j)) ω ∂μ = ∫ ω, ∑ j, (pred ω).mu (sel ω j) ∂μ := by
  set st : Ω → Nat → GPState d := fun ω => activeRun (fun _ => 0) pick (fun y => F y ω) (fun _ => s) fun t => err t ω with hst
  have hdata : ∀ ω, st ω T = dataOf (fun _ => 0) (fun j => pick j (st ω j)) (fun _ => s) (fun j => F (pick j (st ω j)) ω + err j ω) T := fun ω =>
    follows_data (fun _ => 0) pick (fun y => F y ω) (fun _ => s) (fun t => err t ω) (fun j => pick j (st ω j)) fun j _ => rfl
  have htd := fun ω => topRule_data hok hq hs hq0 ht (fun j => pick j (st ω j)) (fun j => F (pick j (st ω j)) ω + err j ω) T
  simp only [← hdata] at htd
  have h0 := choice_value hok hq hs hrule hFm hF hem he hG hst T (topRule_choice hok hq hs hq0 ht T)
  refine ⟨fun ω => topRule (kcov k) ht.enough (st ω T), fun ω => topRule_injective _ _ _, fun ω => (htd ω).1, h0.1, fun rule hr => ?_, fun pred hp => ?_⟩
  · have h1 := choice_value hok hq hs hrule hFm hF hem he hG hst T hr
    refine ⟨h1.1, ?_⟩
    have h2 : ∫ ω, ∑ j, F (turn.cands.get (rule (st ω T) j)) ω ∂μ ≤ ∫ ω, ∑ j, F (turn.cands.get (topRule (kcov k) ht.enough (st ω T) j)) ω ∂μ := by
      rw [h1.2.2, h0.2.2]
      exact integral_mono h1.2.1 h0.2.1 fun ω => (htd ω).2 _ (hr.different _)
    exact h2
  · refine h0.2.2.trans (integral_congr_ae (Filter.Eventually.of_forall fun ω => Finset.sum_congr rfl fun j _ => ?_))
    obtain ⟨p, hp1, hp2⟩ := (point_prediction hok hq (fun j => pick j (st ω j)) hs T).1 turn.cands.get (hq0.trans_le ht.enough)
      fun j => F (pick j (st ω j)) ω + err j ω
    rw [← hdata] at hp1 hp2
    have : p = pred ω := Except.ok.inj (hp1.symm.trans (hp ω))
    rw [← this, (hp2 _).1]

/-- C137, measurements pay: the expected value of what `select` recommends does not fall with further passes, whatever these measure. -/
theorem C137_more {C : Finset (Pt d)} {q : Nat} (hq0 : 0 < q) {turn : UcbTurn d} (ht : TurnOK C q turn) {t T : Nat} (htT : t ≤ T)
    {sel : Nat → Ω → Fin q → Fin turn.cands.length}
    (hsel : ∀ t ω, gpSelectTop (kcov k) q turn (activeRun (fun _ => 0) pick (fun y => F y ω) (fun _ => s) (fun t => err t ω) t) =
        .ok (List.ofFn fun j => (sel t ω j).val)) :
    ∫ ω, ∑ j, F (turn.cands.get (sel t ω j)) ω ∂μ ≤ ∫ ω, ∑ j, F (turn.cands.get (sel T ω j)) ω ∂μ := by
  set st : Ω → Nat → GPState d := fun ω => activeRun (fun _ => 0) pick (fun y => F y ω) (fun _ => s) fun t => err t ω with hst
  have hdata : ∀ ω T, st ω T = dataOf (fun _ => 0) (fun j => pick j (st ω j)) (fun _ => s) (fun j => F (pick j (st ω j)) ω + err j ω) T := fun ω T =>
    follows_data (fun _ => 0) pick (fun y => F y ω) (fun _ => s) (fun t => err t ω) (fun j => pick j (st ω j)) fun j _ => rfl
  have hfirst : ∀ ω, firstRows t (st ω T) = st ω t := fun ω => by rw [hdata ω T, firstRows_data _ _ _ _ htT, ← hdata ω t]
  have hs1 : ∀ t ω, sel t ω = topRule (kcov k) ht.enough (st ω t) := fun t ω => by
    have h1 := (topRule_data hok hq hs hq0 ht (fun j => pick j (st ω j)) (fun j => F (pick j (st ω j)) ω + err j ω) t).1
    rw [← hdata] at h1
    exact ofFn_val_inj (Except.ok.inj ((hsel t ω).symm.trans h1))
  obtain ⟨sel', -, h1, -, h3, -⟩ := C137_top hok hq hs hrule hFm hF hem he hG hq0 ht T
  have e : sel' = sel T := funext fun ω => ofFn_val_inj (Except.ok.inj ((h1 ω).symm.trans (hsel T ω)))
  subst e
  have h4 := (h3 (fun x => topRule (kcov k) ht.enough (firstRows t x))
    ⟨fun x => topRule_injective _ _ _, fun c => firstRows_event htT ((topRule_choice hok hq hs hq0 ht t).event c)⟩).2
  refine le_trans (le_of_eq ?_) h4
  refine integral_congr_ae (Filter.Eventually.of_forall fun ω => Finset.sum_congr rfl fun j _ => ?_)
  have := hfirst ω
  simp only [hst] at this
  simp only [this, hs1]
  rfl

/-- C137, `select_best`: it never raises, and the expected value at the candidate it names is at least that at a candidate
chosen from the training data in any other way. -/
theorem C137_best {cands : List (Pt d)} (hc : cands ≠ []) (T : Nat) :
    ∃ best : Ω → Fin cands.length,
      (∀ ω, gpSelectBest (kcov k) cands (activeRun (fun _ => 0) pick (fun y => F y ω) (fun _ => s) (fun t => err t ω) T) = .ok (best ω).val) ∧
      Integrable (fun ω => F (cands.get (best ω)) ω) μ ∧
      ∀ rule : GPState d → Fin cands.length, (∀ i, DataEvent (fun _ => 0) (fun _ => s) T {st | rule st = i}) →
        Integrable (fun ω => F (cands.get (rule (activeRun (fun _ => 0) pick (fun y => F y ω) (fun _ => s) (fun t => err t ω) T))) ω) μ ∧
        ∫ ω, F (cands.get (rule (activeRun (fun _ => 0) pick (fun y => F y ω) (fun _ => s) (fun t => err t ω) T))) ω ∂μ ≤
          ∫ ω, F (cands.get (best ω)) ω ∂μ := by
  set st : Ω → Nat → GPState d := fun ω => activeRun (fun _ => 0) pick (fun y => F y ω) (fun _ => s) fun t => err t ω with hst
  have hdata : ∀ ω, st ω T = dataOf (fun _ => 0) (fun j => pick j (st ω j)) (fun _ => s) (fun j => F (pick j (st ω j)) ω + err j ω) T := fun ω =>
    follows_data (fun _ => 0) pick (fun y => F y ω) (fun _ => s) (fun t => err t ω) (fun j => pick j (st ω j)) fun j _ => rfl
  have hn : 0 < cands.length := List.length_pos_iff.2 hc
  -- the answer as a rule
  classical
  set ans : GPState d → Fin cands.length := fun x =>
    if h : ∃ i : Fin cands.length, gpSelectBest (kcov k) cands x = .ok i.val then h.choose else ⟨0, hn⟩ with hans
  have hansd : ∀ z v, gpSelectBest (kcov k) cands (dataOf (fun _ => 0) z (fun _ => s) v T) = .ok (ans (dataOf (fun _ => 0) z (fun _ => s) v T)).val ∧
      ∀ j, atMean (kcov k) (dataOf (fun _ => 0) z (fun _ => s) v T) (cands.get j) ≤
        atMean (kcov k) (dataOf (fun _ => 0) z (fun _ => s) v T) (cands.get (ans (dataOf (fun _ => 0) z (fun _ => s) v T))) := by
    intro z v
    obtain ⟨i, hi, hmax⟩ := best_data hok hq hs hc z v T
    have hex : ∃ i : Fin cands.length, gpSelectBest (kcov k) cands (dataOf (fun _ => 0) z (fun _ => s) v T) = .ok i.val := ⟨i, hi⟩
    have e : ans (dataOf (fun _ => 0) z (fun _ => s) v T) = i := by
      simp only [hans]
      rw [dif_pos hex]
      exact Fin.ext (Except.ok.inj (hex.choose_spec.symm.trans hi))
    rw [e]
    exact ⟨hi, hmax⟩
  have hev : ∀ i, DataEvent (fun _ => 0) (fun _ => s) T {st | ans st = i} := by
    intro i z
    obtain ⟨pred, hp, hm, -⟩ := data_prediction k hok hq (fun _ => 0) z (s := fun _ => s) (fun _ => hs) T cands.get hn
    have e : {v : Nat → ℝ | dataOf (fun _ => 0) z (fun _ => s) v T ∈ {st | ans st = i}} =
        (fun v i => (pred v).mu i) ⁻¹' {w | npArgmax (List.ofFn w) = .ok i.val} := by
      ext v
      have h1 := (hansd z v).1
      simp only [gpSelectBest, hp v] at h1
      have h1' : npArgmax (List.ofFn fun i => (pred v).mu i) = .ok (ans (dataOf (fun _ => 0) z (fun _ => s) v T)).val := h1
      simp only [Set.mem_setOf_eq, Set.mem_preimage]
      rw [h1']
      exact ⟨fun h => by rw [h], fun h => Fin.ext (Except.ok.inj h)⟩
    rw [e]
    refine (measurable_pi_lambda _ hm) (order_measurable fun w w' hw h => ?_)
    rw [Set.mem_setOf_eq] at h ⊢
    rw [← h]
    have hl : ∀ u : Fin cands.length → ℝ, List.ofFn u = (List.range cands.length).map fun i => (List.ofFn u).getD i 0 := by
      intro u
      refine List.ext_getElem (by simp) fun j h1 h2 => ?_
      simp only [List.length_ofFn] at h1
      simp [h1, List.getD_eq_getElem?_getD]
    rw [hl w, hl w']
    refine (npArgmax_order (n := cands.length) (fun a b ha hb => ?_) _ (by simp)).symm
    simpa [List.getD_eq_getElem?_getD, ha, hb] using hw ⟨a, ha⟩ ⟨b, hb⟩
  have h0 := rule_mean hok hq hs hrule hFm hF hem he hG hst T hev cands.get
  refine ⟨fun ω => ans (st ω T), fun ω => ?_, h0.1, fun rule hr => ?_⟩
  · show gpSelectBest (kcov k) cands (st ω T) = _
    have h := (hansd (fun j => pick j (st ω j)) fun j => F (pick j (st ω j)) ω + err j ω).1
    rw [← hdata ω] at h
    exact h
  · have h1 := rule_mean hok hq hs hrule hFm hF hem he hG hst T hr cands.get
    refine ⟨h1.1, ?_⟩
    have h2 : ∫ ω, F (cands.get (rule (st ω T))) ω ∂μ ≤ ∫ ω, F (cands.get (ans (st ω T))) ω ∂μ := by
      rw [h1.2.2, h0.2.2]
      refine integral_mono h1.2.1 h0.2.1 fun ω => ?_
      simp only
      rw [hdata ω]
      exact (hansd _ _).2 _
    exact h2

end

/-- C137, after learning with `UCBLearner`: the candidate `select_best` names after `T` passes over the same candidates has an expected
regret of at most the average of the passes, hence at most `1/T` of the bound of C136. -/
theorem C137_regret (k : KExpr ℝ (Pt d)) (hok : AllLeaves (LeafOK (d = 1)) k) (hq : AllLeaves NoNoise k) {alpha s v : ℝ} (hal : 0 < alpha)
    (hs : 0 < s) {S : Finset (Pt d)} (hv0 : 0 ≤ v) (hv : VarianceAtMost k S v) {turn : UcbTurn d} (ht : TurnOK S 1 turn)
    {F : Pt d → Ω → ℝ} (hFm : ∀ x, Measurable (F x)) (hF : IsRandomFunction μ k (fun _ => 0) F) {err : Nat → Ω → ℝ} (hem : ∀ t, Measurable (err t))
    (he : IsMeasurementError μ (fun _ => 0) F (fun _ => s) err)
    (hG : ∀ (T : Nat) (z : Nat → Pt d) (x : Pt d), HasGaussianLaw (fun ω => (fun _ : Fin 1 => F x ω, fun t : Fin T => F (z t) ω + err t ω)) μ)
    {T : Nat} (hT : 0 < T) :
    ∃ (st : Ω → GPState d) (best : Ω → Fin turn.cands.length),
      (∀ ω, noisyUcb (kcov k) alpha (fun y => F y ω) (fun _ => s) (fun t => err t ω) (fun _ => turn) T = .ok (st ω)) ∧
      (∀ ω, gpSelectBest (kcov k) turn.cands (st ω) = .ok (best ω).val) ∧
      Integrable (fun ω => bestOf (fun y => F y ω) turn.cands - F (turn.cands.get (best ω)) ω) μ ∧
      ∫ ω, (bestOf (fun y => F y ω) turn.cands - F (turn.cands.get (best ω)) ω) ∂μ ≤
        alpha * Real.sqrt (S.card * ((v + s) * ((1 + Real.log T) / T))) + S.card * (Real.sqrt v * (Real.exp (-(alpha ^ 2 / 2) - 1) / alpha)) := by
  obtain ⟨hrule, hloop⟩ := C135_ucb k hok hq alpha (s := fun _ => s) (fun _ => hs) (fun _ => ht)
  have hn : 0 < turn.cands.length := ht.enough
  obtain ⟨best, hb1, hb2, hb3⟩ := C137_best hok hq hs hrule hFm hF hem he hG (List.ne_nil_of_length_pos hn) T
  obtain ⟨st', x, hr1, hr2, hr3, hr4⟩ := C136_regret k hok hq hal hs hv0 hv (fun _ => ht) hFm hF hem he hG
  set pick : Nat → GPState d → Pt d := fun _ => ucbChoice (kcov k) alpha turn with hpick
  set st : Ω → Nat → GPState d := fun ω => activeRun (fun _ => 0) pick (fun y => F y ω) (fun _ => s) fun t => err t ω with hst
  have hst' : ∀ ω t, st' ω t = st ω t := fun ω t => Except.ok.inj ((hr1 ω t).symm.trans (hloop _ _ t))
  have hdata : ∀ ω T, st ω T = dataOf (fun _ => 0) (fun j => pick j (st ω j)) (fun _ => s) (fun j => F (pick j (st ω j)) ω + err j ω) T := fun ω T =>
    follows_data (fun _ => 0) pick (fun y => F y ω) (fun _ => s) (fun t => err t ω) (fun j => pick j (st ω j)) fun j _ => rfl
  have hFi : ∀ y, Integrable (F y) μ := fun y => (hF.square y).integrable (by norm_num)
  have hbest : Integrable (fun ω => bestOf (fun y => F y ω) turn.cands) μ := bestOf_integrable hFi _ (List.ne_nil_of_length_pos hn)
  -- the point of an earlier pass as a rule for the final data
  classical
  set idx : Pt d → Fin turn.cands.length := fun y => if h : ∃ i : Fin turn.cands.length, turn.cands.get i = y then h.choose else ⟨0, hn⟩ with hidx
  have hidx' : ∀ y ∈ turn.cands, turn.cands.get (idx y) = y := by
    intro y hy
    have hex : ∃ i : Fin turn.cands.length, turn.cands.get i = y := List.get_of_mem hy
    simp only [hidx]
    rw [dif_pos hex]
    exact hex.choose_spec
  have hxc : ∀ ω t, x ω t = ucbChoice (kcov k) alpha turn (st ω t) ∧ x ω t ∈ turn.cands := by
    intro ω t
    obtain ⟨i, h1, h2⟩ := hr2 ω t
    refine ⟨?_, List.mem_of_getElem? h2⟩
    obtain ⟨q, hq1, -⟩ := (point_prediction hok hq (fun j => pick j (st ω j)) hs t).1 turn.cands.get hn fun j => F (pick j (st ω j)) ω + err j ω
    rw [← hdata] at hq1
    obtain ⟨_, i', -, -, h3, h4, -⟩ := choice_eq (alpha := alpha) ht.ordL hq1 hn
    rw [hst' ω t, h4] at h1
    simp only [Except.ok.injEq, Prod.mk.injEq, List.cons.injEq, and_true] at h1
    rw [h3, ← Option.some_inj, ← h2, ← h1.1, List.getElem?_eq_getElem i'.2]
    rfl
  have hcmp : ∀ t ≤ T, ∫ ω, F (x ω t) ω ∂μ ≤ ∫ ω, F (turn.cands.get (best ω)) ω ∂μ := by
    intro t htT
    have h := (hb3 (fun w => idx (ucbChoice (kcov k) alpha turn (firstRows t w))) fun i => by
      have e : {w : GPState d | idx (ucbChoice (kcov k) alpha turn (firstRows t w)) = i} =
          {w | firstRows t w ∈ {w | idx (ucbChoice (kcov k) alpha turn w) = i}} := rfl
      rw [e]
      refine firstRows_event htT fun z => ?_
      have e2 : {u : Nat → ℝ | dataOf (fun _ => 0) z (fun _ => s) u t ∈ {w | idx (ucbChoice (kcov k) alpha turn w) = i}} =
          ⋃ y : {y : S // idx y = i}, {u | dataOf (fun _ => 0) z (fun _ => s) u t ∈ {w | pick t w = y.1.1}} := by
        ext u
        simp only [Set.mem_setOf_eq, Set.mem_iUnion]
        constructor
        · intro h
          exact ⟨⟨⟨_, hrule.inside t (dataOf (fun _ => 0) z (fun _ => s) u t)⟩, h⟩, rfl⟩
        · rintro ⟨y, hy⟩
          simp only [hpick] at hy
          rw [hy]
          exact y.2
      rw [e2]
      exact MeasurableSet.iUnion fun y => hrule.event t _ z).2
    refine le_trans (le_of_eq ?_) h
    refine integral_congr_ae (Filter.Eventually.of_forall fun ω => ?_)
    have hfirst : firstRows t (activeRun (fun _ => 0) pick (fun y => F y ω) (fun _ => s) (fun t => err t ω) T) = st ω t := by
      show firstRows t (st ω T) = _
      rw [hdata ω T, firstRows_data _ _ _ _ htT, ← hdata ω t]
    simp only [hfirst]
    rw [← (hxc ω t).1, hidx' _ (hxc ω t).2]
  have hxi : ∀ t, Integrable (fun ω => F (x ω t) ω) μ := fun t => by
    have := hbest.sub (hr3 t)
    refine this.congr (Filter.Eventually.of_forall fun ω => ?_)
    simp
  refine ⟨fun ω => st ω T, best, fun ω => hloop _ _ T, hb1, hbest.sub hb2, ?_⟩
  have hTr : (0 : ℝ) < T := by exact_mod_cast hT
  have hsum : (T : ℝ) * ∫ ω, (bestOf (fun y => F y ω) turn.cands - F (turn.cands.get (best ω)) ω) ∂μ ≤
      ∫ ω, ∑ t ∈ Finset.range T, (bestOf (fun y => F y ω) turn.cands - F (x ω t) ω) ∂μ := by
    rw [integral_finsetSum _ fun t _ => hr3 t]
    have h1 : ∑ t ∈ Finset.range T, ∫ ω, (bestOf (fun y => F y ω) turn.cands - F (turn.cands.get (best ω)) ω) ∂μ ≤
        ∑ t ∈ Finset.range T, ∫ ω, (bestOf (fun y => F y ω) turn.cands - F (x ω t) ω) ∂μ := by
      refine Finset.sum_le_sum fun t htT => ?_
      rw [integral_sub hbest hb2, integral_sub hbest (hxi t)]
      exact sub_le_sub_left (hcmp t (Finset.mem_range.1 htT).le) _
    simpa using h1
  have h2 := hsum.trans (hr4 T).2
  rw [← mul_le_mul_iff_right₀ hTr]
  refine h2.trans (le_of_eq ?_)
  have e1 : Real.sqrt (T * (S.card * ((v + s) * (1 + Real.log T)))) = T * Real.sqrt (S.card * ((v + s) * ((1 + Real.log T) / T))) := by
    have : (T : ℝ) * (S.card * ((v + s) * (1 + Real.log T))) = (T : ℝ) ^ 2 * (S.card * ((v + s) * ((1 + Real.log T) / T))) := by
      have hr : 1 + Real.log T = (1 + Real.log T) / T * T := (div_mul_cancel₀ _ hTr.ne').symm
      generalize (1 + Real.log T) / (T : ℝ) = r at hr ⊢
      rw [hr]
      ring
    rw [this, Real.sqrt_mul (by positivity), Real.sqrt_sq hTr.le]
  rw [e1]
  ring

/-! Instances: a random line, measured at 1 or 2 as `UCBLearner` chooses. -/

private lemma line_turn : TurnOK {![1], ![2]} 1 (⟨[![1], ![2]], fun _ => sortedList, sortedList⟩ : UcbTurn 1) where
  mem := by simp
  enough := by simp
  ordL _ := sort_enumerates
  ord := sort_enumerates

private lemma line_far : TurnOK {![-3], ![0], ![5]} 2 (⟨[![-3], ![0], ![5]], fun _ => sortedList, sortedList⟩ : UcbTurn 1) where
  mem := by simp
  enough := by simp
  ordL _ := sort_enumerates
  ord := sort_enumerates

/-- After five measurements two of -3, 0 and 5 are asked for: in expectation they are at least as good as always naming 0 and 5, or as
after three measurements. -/
example : ∃ sel : Nat → (Nat → ℝ) → Fin 2 → Fin 3,
    (∀ T ω, ∃ st, noisyUcb (kcov (.leaf (.linear 1 0 0) : KExpr ℝ (Pt 1))) 2 (fun x => ω 0 * x 0) (fun _ => 1) (fun t => ω (t + 1))
        (fun _ => ⟨[![1], ![2]], fun _ => sortedList, sortedList⟩) T = .ok st ∧
      gpSelectTop (kcov (.leaf (.linear 1 0 0) : KExpr ℝ (Pt 1))) 2 ⟨[![-3], ![0], ![5]], fun _ => sortedList, sortedList⟩ st =
        .ok (List.ofFn fun j => (sel T ω j).val)) ∧
    ∫ ω, (ω 0 * 0 + ω 0 * 5) ∂gaussDraws ≤ ∫ ω, ∑ j, ω 0 * ([![-3], ![0], ![5]] : List (Pt 1)).get (sel 5 ω j) 0 ∂gaussDraws ∧
    ∫ ω, ∑ j, ω 0 * ([![-3], ![0], ![5]] : List (Pt 1)).get (sel 3 ω j) 0 ∂gaussDraws ≤
      ∫ ω, ∑ j, ω 0 * ([![-3], ![0], ![5]] : List (Pt 1)).get (sel 5 ω j) 0 ∂gaussDraws := by
  have hok : AllLeaves (LeafOK ((1 : Nat) = 1)) (.leaf (.linear 1 0 0) : KExpr ℝ (Pt 1)) := by simp [AllLeaves, LeafOK]
  have hq : AllLeaves NoNoise (.leaf (.linear 1 0 0) : KExpr ℝ (Pt 1)) := by simp [AllLeaves, NoNoise, noiseOf]
  obtain ⟨hr, hl⟩ := C135_ucb (.leaf (.linear 1 0 0) : KExpr ℝ (Pt 1)) hok hq 2 (s := fun _ => 1) (fun _ => one_pos) (fun _ => line_turn)
  have hall := fun T => C137_top hok hq one_pos hr (μ := gaussDraws) (F := fun x ω => ω 0 * x 0) (err := fun t ω => ω (t + 1)) (fun x => by fun_prop)
    line_random (fun t => by fun_prop) line_error (fun T z y => line_gauss z T fun _ => y) (by norm_num) line_far T
  choose sel h1 h2 h3 h4 h5 using hall
  refine ⟨sel, fun T ω => ⟨_, hl (fun x => ω 0 * x 0) (fun t => ω (t + 1)) T, h2 T ω⟩, ?_, ?_⟩
  · have h := (h4 5 (fun _ => ![1, 2]) ⟨fun _ => by decide, fun c z => by simp⟩).2
    refine le_trans (le_of_eq ?_) h
    refine integral_congr_ae (Filter.Eventually.of_forall fun ω => ?_)
    simp only [Fin.sum_univ_two]
    rfl
  · exact C137_more hok hq one_pos hr (μ := gaussDraws) (F := fun x ω => ω 0 * x 0) (err := fun t ω => ω (t + 1)) (fun x => by fun_prop)
      line_random (fun t => by fun_prop) line_error (fun T z y => line_gauss z T fun _ => y) (by norm_num) line_far (by norm_num) h2

/-- After 100 passes with `alpha = 2`. -/
example : ∃ (st : (Nat → ℝ) → GPState 1) (best : (Nat → ℝ) → Fin 2),
    (∀ ω, noisyUcb (kcov (.leaf (.linear 1 0 0) : KExpr ℝ (Pt 1))) 2 (fun y => ω 0 * y 0) (fun _ => 1) (fun t => ω (t + 1))
      (fun _ => ⟨[![1], ![2]], fun _ => sortedList, sortedList⟩) 100 = .ok (st ω)) ∧
    (∀ ω, gpSelectBest (kcov (.leaf (.linear 1 0 0) : KExpr ℝ (Pt 1))) [![1], ![2]] (st ω) = .ok (best ω).val) ∧
    ∫ ω, (bestOf (fun y : Pt 1 => ω 0 * y 0) [![1], ![2]] - ω 0 * ([![1], ![2]] : List (Pt 1)).get (best ω) 0) ∂gaussDraws ≤
      2 * Real.sqrt (({![1], ![2]} : Finset (Pt 1)).card * ((4 + 1) * ((1 + Real.log (100 : Nat)) / (100 : Nat)))) +
        ({![1], ![2]} : Finset (Pt 1)).card * (Real.sqrt 4 * (Real.exp (-(2 ^ 2 / 2) - 1) / 2)) := by
  obtain ⟨st, best, h1, h2, -, h4⟩ := C137_regret (.leaf (.linear 1 0 0) : KExpr ℝ (Pt 1)) (by simp [AllLeaves, LeafOK])
    (by simp [AllLeaves, NoNoise, noiseOf]) (μ := gaussDraws) (alpha := 2) (s := 1) (v := 4) (S := {![1], ![2]}) (by norm_num) one_pos (by norm_num)
    (by
      intro y hy c hc
      simp only [KExpr.cov, KLeaf.cov] at hc
      cases hc
      simp only [Finset.mem_insert, Finset.mem_singleton] at hy
      rcases hy with rfl | rfl <;> norm_num)
    line_turn (fun x => by fun_prop) line_random (fun t => by fun_prop) line_error (fun T z y => line_gauss z T fun _ => y) (T := 100) (by norm_num)
  exact ⟨st, best, h1, h2, h4⟩

end Lop.Props
