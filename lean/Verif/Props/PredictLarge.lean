import Verif.Proofs.PredictLarge

/-! # Property C27 – `predict_large` agrees with `predict` -/

namespace Lop.Props

open Lop.Spec

variable {d : Nat}

/-- C27, chunking: for every number of query points there is a division of the query list, in order
and without omissions or repetitions, into non-empty chunks of at most 15 points, such that for every
prediction routine returning one mean and one variance per point, `predict_large` returns the
concatenation of the chunk results. -/
theorem C27_chunks (X : List (Pt d)) :
    ∃ cs : List (List (Pt d)), cs.flatten = X ∧ (∀ c ∈ cs, c ≠ [] ∧ c.length ≤ 15) ∧
      ∀ (predict : List (Pt d) → Except PyErr (List ℝ × List ℝ)) (junk : ℝ)
        (p : List (Pt d) → List ℝ × List ℝ),
        (∀ c ∈ cs, predict c = .ok (p c) ∧ (p c).1.length = c.length ∧ (p c).2.length = c.length) →
        gpPredictLarge predict junk X =
          .ok ((cs.map fun c => (p c).1).flatten, (cs.map fun c => (p c).2).flatten) := by
  refine ⟨chunks15 ((X.length + 14) / 15) X, chunks15_flatten _ _ (by omega),
    fun c hc => chunks15_mem _ _ (by omega) hc, fun predict junk p hp => ?_⟩
  have := predictRuns_chunks predict X ((X.length + 14) / 15) 0 (by omega) (by omega) p
    (by simpa using hp) [] [] (List.replicate X.length junk) (List.replicate X.length junk)
    (by simp) (by simp) (by simp) (by simp)
  simpa [gpPredictLarge] using this

/-- C27: for every kernel expression without zeroed kernels, every fitted (or unfitted) model and every
non-empty query list, `predict_large` returns exactly what `predict` returns, provided the kernel has
no observation noise or the first training point is not among the query points. -/
theorem C27_agrees_partial (k : KExpr ℝ (Pt d)) (hnz : AllLeaves NotZeroed k) {t : Nat}
    (fit : Option (GPFit d t)) (X : List (Pt d)) (hX : X ≠ []) (junk : ℝ)
    (hcross : AllLeaves NoNoise k ∨ ∀ f, fit = some f → ∀ ht : 0 < t, f.xTrain ⟨0, ht⟩ ∉ X) :
    ∃ r, gpPredict (fun _ _ X Y => k.cov X Y) fit X = .ok r ∧
      gpPredictLarge (gpPredict (fun _ _ X Y => k.cov X Y) fit) junk X = .ok r ∧
      r.1.length = X.length ∧ r.2.length = X.length := by
  obtain ⟨cs, h1, h2, h3⟩ := C27_chunks X
  refine ⟨_, gpPredict_pointwise k hnz fit X hX hcross, ?_, by simp, by simp⟩
  rw [h3 _ junk (fun c => (c.map (meanAt k fit), c.map (varAt k fit)))]
  · conv_rhs => rw [← h1]
    simp only [List.map_flatten]
  · intro c hc
    refine ⟨gpPredict_pointwise k hnz fit c (h2 c hc).1 ?_, by simp, by simp⟩
    rcases hcross with h | h
    · exact .inl h
    · refine .inr fun f hf ht hmem => h f hf ht ?_
      rw [← h1]
      exact List.mem_flatten_of_mem hc hmem

/-- C27 as stated is false: with observation noise, one training point and 16 query points equal to
it, `predict` gives mean `σ² α` for the last point but `predict_large` gives `(σ² + noise) α`. -/
theorem C27_noise_counterexample (s l noise : ℝ) (hnoise : noise ≠ 0) (z : Pt d) (junk : ℝ) :
    ∃ r r', gpPredict (fun _ _ X Y => (KExpr.leaf (.rbf s l noise)).cov X Y)
        (some ⟨fun _ : Fin 1 => z, fun _ => 1, 0, 1⟩) (List.replicate 16 z) = .ok r ∧
      gpPredictLarge (gpPredict (fun _ _ X Y => (KExpr.leaf (.rbf s l noise)).cov X Y)
        (some ⟨fun _ : Fin 1 => z, fun _ => 1, 0, 1⟩)) junk (List.replicate 16 z) = .ok r' ∧
      r.1[15]? = some (s * s) ∧ r'.1[15]? = some (s * s + noise) ∧ r ≠ r' := by
  set k : KExpr ℝ (Pt d) := .leaf (.rbf s l noise) with hk
  set fit : Option (GPFit d 1) := some ⟨fun _ : Fin 1 => z, fun _ => 1, 0, 1⟩ with hfit
  have hnz : AllLeaves NotZeroed k := by simp [k, AllLeaves, NotZeroed]
  -- prediction for `q` copies of the training point
  have key : ∀ q, 0 < q → ∃ sg : ℝ, gpPredict (fun _ _ X Y => k.cov X Y) fit (List.replicate q z)
      = .ok (List.replicate q (s * s + if q = 1 then noise else 0), List.replicate q sg) := by
    intro q hq
    have hn : 0 < (List.replicate q z).length := by simpa using hq
    obtain ⟨cx, hcx⟩ := cov_returns k (List.replicate q z).get (fun _ : Fin 1 => z) hn
    obtain ⟨ct, hct⟩ := cov_returns k (List.replicate q z).get (List.replicate q z).get hn
    have hget : ∀ i, (List.replicate q z).get i = z := by simp
    have hent : ∀ i j, cx i j = s * s + if q = 1 then noise else 0 := by
      intro i j
      by_cases hq1 : q = 1
      · rw [cov_entry_noise k hnz (by simp [k, OnlySums]) _ _ hcx i j
          ⟨by simpa using hq1, ⟨hn, one_pos, by simp⟩, by
            have := i.isLt; have := j.isLt; simp only [List.length_replicate] at *; omega⟩]
        simp [hq1, k, KExpr.eval, KLeaf.eval, rbfEval_self, noiseSum, noiseOf]
      · rw [cov_entry k hnz _ _ hcx i j (fun h => hq1 (by simpa using h.1))]
        simp [hq1, k, KExpr.eval, KLeaf.eval, rbfEval_self]
    refine ⟨max 0 (selfVar z k), ?_⟩
    simp only [gpPredict, hfit, hcx, hct]
    refine congrArg Except.ok (Prod.ext ?_ ?_)
    · refine List.eq_replicate_iff.2 ⟨by simp, fun x hx => ?_⟩
      obtain ⟨i, rfl⟩ := (List.mem_ofFn' _ _).1 hx
      simp [Matrix.mulVec, dotProduct, hent]
    · refine List.eq_replicate_iff.2 ⟨by simp, fun x hx => ?_⟩
      obtain ⟨i, rfl⟩ := (List.mem_ofFn' _ _).1 hx
      simp only [Matrix.zero_mul, Matrix.mul_zero, Matrix.zero_apply, sub_zero]
      rw [cov_self_diag k hnz _ hct i, hget]
  obtain ⟨sg16, h16⟩ := key 16 (by norm_num)
  obtain ⟨sg15, h15⟩ := key 15 (by norm_num)
  obtain ⟨sg1, h1⟩ := key 1 (by norm_num)
  simp only [show ¬ (16 = 1) by decide, show ¬ (15 = 1) by decide, if_true, if_false, add_zero]
    at h16 h15 h1
  have hlarge : gpPredictLarge (gpPredict (fun _ _ X Y => k.cov X Y) fit) junk (List.replicate 16 z)
      = .ok (List.replicate 15 (s * s) ++ List.replicate 1 (s * s + noise),
          List.replicate 15 sg15 ++ List.replicate 1 sg1) := by
    have e1 : ((List.replicate 16 z).take 15).drop 0 = List.replicate 15 z := rfl
    have e2 : ((List.replicate 16 z).take 16).drop 15 = List.replicate 1 z := rfl
    have hl : (List.replicate 16 z).length = 16 := List.length_replicate
    unfold gpPredictLarge
    rw [hl]
    simp only [show (16 + 14) / 15 = 2 by decide, gpPredictRuns, hl]
    simp only [show min 16 (0 * 15 + 15) = 15 by decide, show 0 * 15 = 0 by decide,
      show min 16 ((0 + 1) * 15 + 15) = 16 by decide, show (0 + 1) * 15 = 15 by decide, e1, h15]
    rw [e2, h1]
    simp [List.replicate]
  refine ⟨_, _, h16, hlarge, ?_, ?_, ?_⟩
  · simp
  · rw [List.getElem?_append_right (by simp)]
    simp
  · intro h
    have := congrArg (fun r : List ℝ × List ℝ => r.1[15]?) h
    simp only at this
    rw [List.getElem?_append_right (by simp)] at this
    simp at this
    exact hnoise this

/-- C27 fails for an empty query list with an RBF kernel: `predict` raises, `predict_large` returns
empty arrays. -/
theorem C27_empty_counterexample (s l noise junk : ℝ) (fit : GPFit d 1) :
    gpPredict (fun _ _ X Y => (KExpr.leaf (.rbf s l noise)).cov X Y) (some fit) []
        = .error .indexError ∧
      gpPredictLarge (gpPredict (fun _ _ X Y => (KExpr.leaf (.rbf s l noise)).cov X Y) (some fit))
        junk [] = .ok ([], []) := by
  constructor
  · have h2 : ¬ (([] : List (Pt d)).length = 1 ∧ ([] : List (Pt d)).length = 0) := by simp
    simp only [gpPredict, KExpr.cov, KLeaf.cov, rbfCov_ok h2]
    simp [rbfCov]
  · simp [gpPredictLarge, gpPredictRuns]

/-- Instance of C27: a noisy RBF kernel, one training point at 1, query points at 0. -/
example : AllLeaves NotZeroed (.leaf (.rbf 1 1 (1 / 10)) : KExpr ℝ (Pt 1)) ∧
    ((fun _ => 1 : Pt 1) ∉ List.replicate 40 (0 : Pt 1)) ∧ List.replicate 40 (0 : Pt 1) ≠ [] := by
  refine ⟨by simp [AllLeaves, NotZeroed], fun h => ?_, by simp⟩
  have := List.eq_of_mem_replicate h
  have := congrFun this 0
  simp at this

end Lop.Props
