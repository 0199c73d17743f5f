import Verif.Proofs.UnitsKernel
import Verif.Proofs.OrdTail

/-! # C119: turning all answers round turns the model round -/

namespace Lop.Props

open Lop.Spec Matrix

variable {n t d : Nat}

private lemma neg_one_times {m : Nat} (F : Fin m → ℝ) : (-1 : ℝ) • F = -F := by simp

/-- C119: with every comparison turned round and every rating `r` replaced by `1 - r`, the fit from the negative start gives
the negative utilities, exactly, after the same number of loops – whatever the inversion routine does, with or without
`normalize_gp`. -/
theorem C119_fit (o : ModeOpts) (hn : o.normalizeGp = false ∨ o.normalizePositive = false) (P : ProbitSet)
    (pairs : Option (List (IPair (n + 1)))) (abs : Option (List (ℝ × Fin (n + 1))))
    (h : abs ≠ none → Phi (-30) ≤ P.absEps ∧ P.absEps ≤ 1 / 2) (K : Matrix (Fin (n + 1)) (Fin (n + 1)) ℝ)
    (invert : Matrix (Fin (n + 1)) (Fin (n + 1)) ℝ → Option (Matrix (Fin (n + 1)) (Fin (n + 1)) ℝ)) (F0 : Fin (n + 1) → ℝ) :
    findMode o P (labelsTurned pairs abs) K invert (-F0) =
      (findMode o P ⟨pairs, none, abs⟩ K invert F0).map (fitTimes (-1)) := by
  have e := findMode_times (a := -1) (by norm_num) o
    (hn.imp id fun h => ⟨by norm_num, h⟩) K (gpDerivatives_turned h pairs) (logLikTraining_turned h pairs)
    (invert := invert) (.inl (by norm_num)) F0
  have e2 : ((-1 : ℝ) ^ 2) • K = K := by norm_num
  rw [e2, neg_one_times] at e
  rw [← e]
  norm_num

/-- C119: the default `eps = 1e-10` of the ratings satisfies the condition of `C119_fit`. -/
theorem C119_default_eps : Phi (-30) ≤ 1 / 10 ^ 10 ∧ (1 / 10 ^ 10 : ℝ) ≤ 1 / 2 := by
  refine ⟨?_, by norm_num⟩
  have h1 := Phi_neg_upper 30
  have h2 : phi 30 ≤ Real.exp (-450) := by
    rw [phi, show -((30 : ℝ) ^ 2) / 2 = -450 by norm_num]
    refine div_le_self (Real.exp_pos _).le ?_
    rw [Real.one_le_sqrt]
    linarith [Real.pi_gt_three]
  have h3 : Real.exp (-450) ≤ 1 / 10 ^ 10 := by
    have : (2 : ℝ) ^ 450 ≤ Real.exp 450 := by
      rw [show (450 : ℝ) = (450 : ℕ) * 1 by norm_num, Real.exp_nat_mul]
      exact pow_le_pow_left₀ (by norm_num) (by linarith [Real.add_one_le_exp (1 : ℝ)]) _
    rw [Real.exp_neg, one_div]
    refine inv_anti₀ (by positivity) (le_trans ?_ this)
    exact le_trans (by norm_num : (10 : ℝ) ^ 10 ≤ 2 ^ 40) (pow_le_pow_right₀ (by norm_num) (by norm_num))
  have h4 := Phi_pos (-30)
  linarith

/-- C119: and the prediction has the negative mean and the same variances and covariances. -/
theorem C119_predict (cov : CovFn d) (Y : Fin t → Pt d) (K W : Matrix (Fin t) (Fin t) ℝ) (F : Fin t → ℝ)
    (invert : Matrix (Fin t) (Fin t) ℝ → Option (Matrix (Fin t) (Fin t) ℝ)) (X : Fin n → Pt d) :
    prefGpPredict cov Y K W (-F) invert X =
      (prefGpPredict cov Y K W F invert X).map fun r => ⟨-r.mu, r.sigma, r.cov⟩ := by
  have e : ∀ (Ks : Matrix (Fin n) (Fin t) ℝ) Kss, laplacePredict K W (-F) invert Ks Kss =
      (laplacePredict K W F invert Ks Kss).map fun r => ⟨-r.mu, r.sigma, r.cov⟩ := by
    intro Ks Kss
    have := laplacePredict_times (a := -1) (by norm_num) K W F invert Ks Kss
    have e2 : ∀ r : GPPred n, predTimes (-1) r = ⟨-r.mu, r.sigma, r.cov⟩ := fun r => by norm_num [predTimes]
    norm_num at this
    rw [this]
    congr
    exact funext e2
  simp only [prefGpPredict, e]
  cases cov n t X Y with
  | error _ => rfl
  | ok Ks => cases cov n n X X <;> rfl

/-- C119: from labels to predictions. -/
theorem C119_model (o : ModeOpts) (hn : o.normalizeGp = false ∨ o.normalizePositive = false) (P : ProbitSet)
    (pairs : Option (List (IPair (n + 1)))) (abs : Option (List (ℝ × Fin (n + 1))))
    (h : abs ≠ none → Phi (-30) ≤ P.absEps ∧ P.absEps ≤ 1 / 2) (cov : CovFn d) (Y : Fin (n + 1) → Pt d)
    (K : Matrix (Fin (n + 1)) (Fin (n + 1)) ℝ)
    (invert : Matrix (Fin (n + 1)) (Fin (n + 1)) ℝ → Option (Matrix (Fin (n + 1)) (Fin (n + 1)) ℝ)) (F0 : Fin (n + 1) → ℝ)
    {f f' : ModeFit (n + 1)} {F F' : Fin (n + 1) → ℝ} {D D' : Derivs (n + 1)}
    (hf : findMode o P ⟨pairs, none, abs⟩ K invert F0 = .ok f) (hF : f.F = some F) (hD : f.derivs = some D)
    (hf' : findMode o P (labelsTurned pairs abs) K invert (-F0) = .ok f') (hF' : f'.F = some F') (hD' : f'.derivs = some D')
    {m : Nat} (X : Fin m → Pt d) :
    f'.loops = f.loops ∧ F' = -F ∧ D'.1 = D.1 ∧ prefGpPredict cov Y K D'.1 F' invert X =
      (prefGpPredict cov Y K D.1 F invert X).map fun r => ⟨-r.mu, r.sigma, r.cov⟩ := by
  rw [C119_fit o hn P pairs abs h K invert F0, hf] at hf'
  obtain rfl : fitTimes (-1) f = f' := Except.ok.inj hf'
  simp only [fitTimes, hF, hD, Option.map_some, Option.some.injEq, neg_one_times] at hF' hD'
  subst hF'
  have hD1 : D'.1 = D.1 := by
    rw [← hD']
    norm_num [derivsTimes]
  rw [hD1]
  exact ⟨rfl, rfl, rfl, C119_predict cov Y K D.1 F invert X⟩

/-- C119, linear model: the whole fit from the negative start weights gives the negative weights. -/
theorem C119_linear (P : ProbitSet) (pairs : Option (List (IPair n))) (abs : Option (List (ℝ × Fin n)))
    (h : abs ≠ none → Phi (-30) ≤ P.absEps ∧ P.absEps ≤ 1 / 2) (X : Matrix (Fin n) (Fin d) ℝ) (w0 : Fin d → ℝ) :
    linFit P (labelsTurned pairs abs) X (-w0) = (linFit P ⟨pairs, none, abs⟩ X w0).map (Option.map (-·)) := by
  have hv : ∀ w, linValues X ((-1 : Matrix (Fin d) (Fin d) ℝ) *ᵥ w) = (-1 : ℝ) • linValues X w := by
    intro w
    rw [linValues, linValues, neg_mulVec, one_mulVec, mulVec_neg, neg_one_times]
  have := linFit_coords (P := P) (P' := P) (y := ⟨pairs, none, abs⟩) (y' := labelsTurned pairs abs) (X := X) (X' := X)
    (A := -1) (B := -1) (by simp) (fun w => by
      simp only [linDerivatives, hv, gpDerivatives_turned h pairs]
      cases gpDerivatives P ⟨pairs, none, abs⟩ (linValues X w) with
      | error e => rfl
      | ok r =>
        cases r with
        | none => rfl
        | some r =>
          simp only [Except.map, Option.map_some, derivsTimes, Except.ok.injEq, Option.some.injEq]
          refine Prod.ext ?_ (Prod.ext ?_ rfl)
          · norm_num
          · simp only
            rw [vecMul_neg, vecMul_one]
            norm_num [neg_vecMul])
    (fun w => by simp only [linLoss, hv, logLikTraining_turned h pairs]) (by simp) w0
  simpa only [neg_mulVec, one_mulVec] using this

/-- Ordinal ratings have no mirror image: with three categories and default parameters, a single rating in the middle one –
its own mirror image – pulls the utility 0 upwards, since the boundaries are 0 and `b`, not `-b` and `b`. -/
theorem C119_ordinal_false : ∃ (o : OrdHyper ℝ) (r : OrdDerv 1), OrdHyper.init 1 1 3 = .ok o ∧
    ordDerivatives o (1 / 10 ^ 10) [(2, 0)] 0 = .ok (some r) ∧ 0 < r.2.1 0 := by
  have ho : OrdHyper.init (1 : ℝ) 1 3 = .ok ⟨1, 3, [.neg, .fin 0, .fin 1, .pos]⟩ := by
    norm_num [OrdHyper.init, OrdHyper.setHyper, OrdHyper.setB, linspace0, List.range_succ]
  have hphi : phi 1 < phi 0 := by
    refine div_lt_div_of_pos_right (Real.exp_lt_exp.2 (by norm_num)) (Real.sqrt_pos.2 ?_)
    linarith [Real.pi_pos]
  have hl : 1 / 10 ^ 10 ≤ Phi 1 - Phi 0 := by
    have h1 := Phi_neg_upper 1
    have h2 := Phi_neg 1
    have h3 := phi_zero_bounds.2
    rw [Phi_zero]
    norm_num at h1 h3 ⊢
    linarith
  have hpos : 0 < Phi 1 - Phi 0 := lt_of_lt_of_le (by norm_num) hl
  generalize (1 / 10 ^ 10 : ℝ) = eps at hl ⊢
  have e1 : ordLikEach (⟨1, 3, [.neg, .fin 0, .fin 1, .pos]⟩ : OrdHyper ℝ) [(2, (0 : Fin 1))] 0 = .ok [Phi 1 - Phi 0] := by
    have c1 : min (max (1 : ℝ) (-30)) 100 = 1 := by norm_num
    simp [ordLikEach, ordLik, ordCdf, bndZ, bndCdf, stdNormCdf, npClip, bind, Except.bind, pure, Except.pure, c1]
  have e2 : ordDerv1 (⟨1, 3, [.neg, .fin 0, .fin 1, .pos]⟩ : OrdHyper ℝ) eps 1 0 (Phi 1 - Phi 0) =
      .ok (some (-(phi 1 - phi 0) / (Phi 1 - Phi 0), -((-(phi 1 - phi 0) / (Phi 1 - Phi 0)) ^ 2 +
        (phi 1 - phi 0) / (Phi 1 - Phi 0)))) := by
    simp only [ordDerv1, if_neg (not_lt.2 hl)]
    simp [ordPdf, bndZ, bndPdf, stdNormPdf_eq, bind, Except.bind, pure, Except.pure]
  refine ⟨_, (assignGrid [(0, (-(phi 1 - phi 0) / (Phi 1 - Phi 0)) ^ 2 + (phi 1 - phi 0) / (Phi 1 - Phi 0))],
    assignVec [(0, -(phi 1 - phi 0) / (Phi 1 - Phi 0))], Real.log (Phi 1 - Phi 0)), ho, ?_, ?_⟩
  · simp only [ordDerivatives, e1, bind, Except.bind]
    simp [e2, npLog, hpos, pure, Except.pure, bind, Except.bind]
  · simp only [assignVec, List.foldl_cons, List.foldl_nil, Function.update_self]
    exact div_pos (by linarith) hpos

/-- The hypotheses of `C119_fit` and `C119_linear` with ratings, default `eps`. -/
example : (some [((3 : ℝ) / 10, (0 : Fin 2))]) ≠ none → Phi (-30) ≤ (1 / 10 ^ 10 : ℝ) ∧ (1 / 10 ^ 10 : ℝ) ≤ 1 / 2 :=
  fun _ => C119_default_eps

/-- Labels turned round: the first point rather than the second, and the rating 3/10 of the first. -/
example : labelsTurned (some [(⟨1, 0, 1⟩ : IPair 2)]) (some [(3 / 10, 0)]) = ⟨some [⟨-1, 0, 1⟩], none, some [(7 / 10, 0)]⟩ := by
  norm_num [labelsTurned, pairTurned]

end Lop.Props
