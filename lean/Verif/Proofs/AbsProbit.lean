import Verif.Model.AbsProbit
import Verif.Spec.AbsProbit
import Verif.Proofs.Gamma
import Verif.Proofs.Assign
import Mathlib.Tactic.FieldSimp
import Mathlib.Tactic.Ring
import Mathlib.Tactic.Positivity
import Mathlib.Tactic.Linarith

/-! # Derivatives of the beta log-likelihood -/

namespace Lop

open Spec ProbabilityTheory

variable {m : Nat}

/-- Shape parameters, as functions of the precision and the standardised latent value. -/
noncomputable def shA (v z : ℝ) : ℝ := v * Phi z
noncomputable def shB (v z : ℝ) : ℝ := v - v * Phi z

theorem shA_pos {v : ℝ} (hv : 0 < v) (z : ℝ) : 0 < shA v z := mul_pos hv (Phi_pos z)

theorem shB_pos {v : ℝ} (hv : 0 < v) (z : ℝ) : 0 < shB v z := by
  have := mul_lt_mul_of_pos_left (Phi_lt_one z) hv
  unfold shB; linarith

noncomputable def shT (y v z : ℝ) : ℝ := absTmp y (shA v z) (shB v z)
noncomputable def shS (v z : ℝ) : ℝ := trigamma (shA v z) + trigamma (shB v z)

noncomputable def shL (y v z : ℝ) : ℝ :=
  (shA v z - 1) * Real.log y + (shB v z - 1) * Real.log (1 - y) - logGamma (shA v z) - logGamma (shB v z)
    + logGamma v

theorem log_beta {a b y : ℝ} (ha : 0 < a) (hb : 0 < b) (h0 : 0 < y) (h1 : y < 1) :
    Real.log (betaPDFReal a b y) = (a - 1) * Real.log y + (b - 1) * Real.log (1 - y) - logGamma a
      - logGamma b + logGamma (a + b) := by
  have hB := beta_pos ha hb
  have h1' : 0 < 1 - y := by linarith
  have e1 : Real.log (y ^ (a - 1)) = (a - 1) * Real.log y := Real.log_rpow h0 _
  have e2 : Real.log ((1 - y) ^ (b - 1)) = (b - 1) * Real.log (1 - y) := Real.log_rpow h1' _
  rw [betaPDFReal, if_pos ⟨h0, h1⟩, Real.log_mul (by positivity) (by positivity),
    Real.log_mul (by positivity) (by positivity), e1, e2, one_div, Real.log_inv, beta,
    Real.log_div (mul_pos (Real.Gamma_pos_of_pos ha) (Real.Gamma_pos_of_pos hb)).ne'
      (Real.Gamma_pos_of_pos (by linarith)).ne',
    Real.log_mul (Real.Gamma_pos_of_pos ha).ne' (Real.Gamma_pos_of_pos hb).ne']
  simp only [logGamma]
  ring

theorem log_beta_sh {v z y : ℝ} (hv : 0 < v) (h0 : 0 < y) (h1 : y < 1) :
    Real.log (betaPDFReal (shA v z) (shB v z) y) = shL y v z := by
  rw [log_beta (shA_pos hv z) (shB_pos hv z) h0 h1, shL]
  congr 2
  simp [shA, shB]

section curve

variable {c z v : ℝ → ℝ} {c' z' v' t y : ℝ}

theorem hasDerivAt_shA (hz : HasDerivAt z z' t) (hv : HasDerivAt v v' t) :
    HasDerivAt (fun s => shA (v s) (z s)) (v' * Phi (z t) + v t * (phi (z t) * z')) t :=
  hv.mul ((hasDerivAt_Phi (z t)).comp t hz)

theorem hasDerivAt_shB (hz : HasDerivAt z z' t) (hv : HasDerivAt v v' t) :
    HasDerivAt (fun s => shB (v s) (z s)) (v' - (v' * Phi (z t) + v t * (phi (z t) * z'))) t :=
  hv.sub (hasDerivAt_shA hz hv)

theorem hasDerivAt_phi_comp (hz : HasDerivAt z z' t) :
    HasDerivAt (fun s => phi (z s)) (-z t * phi (z t) * z') t := (hasDerivAt_phi (z t)).comp t hz

theorem hasDerivAt_shT (hz : HasDerivAt z z' t) (hv : HasDerivAt v v' t) (hp : 0 < v t) :
    HasDerivAt (fun s => shT y (v s) (z s))
      (-(trigamma (shA (v t) (z t)) * (v' * Phi (z t) + v t * (phi (z t) * z')))
        + trigamma (shB (v t) (z t)) * (v' - (v' * Phi (z t) + v t * (phi (z t) * z')))) t := by
  have h1 := HasDerivAt.comp (h₂ := digamma) (h := fun s => shA (v s) (z s)) t
    (hasDerivAt_digamma (shA_pos hp (z t))) (hasDerivAt_shA hz hv)
  have h2 := HasDerivAt.comp (h₂ := digamma) (h := fun s => shB (v s) (z s)) t
    (hasDerivAt_digamma (shB_pos hp (z t))) (hasDerivAt_shB hz hv)
  have h3 := ((hasDerivAt_const t (Real.log y - Real.log (1 - y))).sub h1).add h2
  refine HasDerivAt.congr_deriv (f := fun s => shT y (v s) (z s)) h3 ?_
  ring

theorem hasDerivAt_shS (hz : HasDerivAt z z' t) (hv : HasDerivAt v v' t) (hp : 0 < v t) :
    HasDerivAt (fun s => shS (v s) (z s))
      (tetragamma (shA (v t) (z t)) * (v' * Phi (z t) + v t * (phi (z t) * z'))
        + tetragamma (shB (v t) (z t)) * (v' - (v' * Phi (z t) + v t * (phi (z t) * z')))) t := by
  have h1 := HasDerivAt.comp (h₂ := trigamma) (h := fun s => shA (v s) (z s)) t
    (hasDerivAt_trigamma (shA_pos hp (z t))) (hasDerivAt_shA hz hv)
  have h2 := HasDerivAt.comp (h₂ := trigamma) (h := fun s => shB (v s) (z s)) t
    (hasDerivAt_trigamma (shB_pos hp (z t))) (hasDerivAt_shB hz hv)
  exact h1.add h2

theorem hasDerivAt_shL (hz : HasDerivAt z z' t) (hv : HasDerivAt v v' t) (hp : 0 < v t) :
    HasDerivAt (fun s => shL y (v s) (z s))
      ((v' * Phi (z t) + v t * (phi (z t) * z')) * (Real.log y - digamma (shA (v t) (z t)))
        + (v' - (v' * Phi (z t) + v t * (phi (z t) * z')))
          * (Real.log (1 - y) - digamma (shB (v t) (z t))) + digamma (v t) * v') t := by
  have hA := hasDerivAt_shA hz hv
  have hB := hasDerivAt_shB hz hv
  have h1 := HasDerivAt.comp (h₂ := logGamma) (h := fun s => shA (v s) (z s)) t
    (hasDerivAt_logGamma (shA_pos hp (z t))) hA
  have h2 := HasDerivAt.comp (h₂ := logGamma) (h := fun s => shB (v s) (z s)) t
    (hasDerivAt_logGamma (shB_pos hp (z t))) hB
  have h3 := HasDerivAt.comp (h₂ := logGamma) (h := v) t (hasDerivAt_logGamma hp) hv
  have h4 := ((((hA.sub_const 1).mul_const (Real.log y)).add
    ((hB.sub_const 1).mul_const (Real.log (1 - y)))).sub h1).sub h2
  have h5 := h4.add h3
  refine HasDerivAt.congr_deriv (f := fun s => shL y (v s) (z s)) h5 ?_
  ring

/-- The gradient entry `v c φ(z) T`. -/
noncomputable def shG (y c v z : ℝ) : ℝ := v * c * phi z * shT y v z

/-- The entry of `W`: `v c² φ(z) (z T + v φ(z) S)`. -/
noncomputable def shW (y c v z : ℝ) : ℝ := v * c ^ 2 * phi z * (z * shT y v z + v * phi z * shS v z)

theorem hasDerivAt_shW (hc : HasDerivAt c c' t) (hz : HasDerivAt z z' t) (hv : HasDerivAt v v' t)
    (hp : 0 < v t) :
    HasDerivAt (fun s => shW y (c s) (v s) (z s))
      ((v' * (c t) ^ 2 * phi (z t) + v t * (2 * c t * c') * phi (z t)
          + v t * (c t) ^ 2 * (-z t * phi (z t) * z'))
          * (z t * shT y (v t) (z t) + v t * phi (z t) * shS (v t) (z t))
        + v t * (c t) ^ 2 * phi (z t) *
          (z' * shT y (v t) (z t) + z t *
            (-(trigamma (shA (v t) (z t)) * (v' * Phi (z t) + v t * (phi (z t) * z')))
              + trigamma (shB (v t) (z t)) * (v' - (v' * Phi (z t) + v t * (phi (z t) * z'))))
          + (v' * phi (z t) + v t * (-z t * phi (z t) * z')) * shS (v t) (z t)
          + v t * phi (z t) *
            (tetragamma (shA (v t) (z t)) * (v' * Phi (z t) + v t * (phi (z t) * z'))
              + tetragamma (shB (v t) (z t)) * (v' - (v' * Phi (z t) + v t * (phi (z t) * z')))))) t := by
  have hφ := hasDerivAt_phi_comp hz
  have hT := hasDerivAt_shT (y := y) hz hv hp
  have hS := hasDerivAt_shS hz hv hp
  have h1 := (hv.mul (hc.pow 2)).mul hφ
  have h2 := (hz.mul hT).add ((hv.mul hφ).mul hS)
  have h3 := h1.mul h2
  refine HasDerivAt.congr_deriv (f := fun s => shW y (c s) (v s) (z s)) h3 ?_
  simp only [Pi.mul_apply, Pi.pow_apply, Pi.add_apply]
  norm_num
  ring

theorem hasDerivAt_shG (hz : HasDerivAt z z' t) {k w : ℝ} (hp : 0 < w) :
    HasDerivAt (fun s => shG y k w (z s))
      (w * k * (-z t * phi (z t) * z') * shT y w (z t) + w * k * phi (z t) *
        (-(w * phi (z t) * z' * shS w (z t)))) t := by
  have hv : HasDerivAt (fun _ : ℝ => w) 0 t := hasDerivAt_const t w
  have hφ := (hasDerivAt_phi_comp hz).const_mul (w * k)
  have hT := hasDerivAt_shT (y := y) hz hv hp
  refine HasDerivAt.congr_deriv (f := fun s => shG y k w (z s)) (hφ.mul hT) ?_
  simp only [shS]
  ring

end curve

/-- No clipping is active at the latent value `f`. -/
def InR (sigma eps f : ℝ) : Prop :=
  -30 < f * isqrt2sig sigma ∧ f * isqrt2sig sigma < 100 ∧ eps < Phi (f * isqrt2sig sigma) ∧
    Phi (f * isqrt2sig sigma) < 1 - eps

theorem div_eq_z (sigma f : ℝ) : f / (Real.sqrt 2 * sigma) = f * isqrt2sig sigma := by
  rw [isqrt2sig, mul_comm sigma]; ring

theorem inR_of_range {sigma eps : ℝ} {y : List (ℝ × Fin m)} {F : Fin m → ℝ}
    (h : RatingsInRange sigma eps y F) : ∀ p ∈ y, InR sigma eps (F p.2) := by
  intro p hp
  have := h p hp
  rw [ratingMean, div_eq_z] at this
  exact this

theorem meanLink_of_inR {sigma eps f : ℝ} (h : InR sigma eps f) :
    meanLink sigma eps f = Phi (f * isqrt2sig sigma) := by
  obtain ⟨h1, h2, h3, h4⟩ := h
  rw [meanLink, stdNormCdf_of_mem h1.le h2.le, npClip, max_eq_left h3.le, min_eq_left h4.le]

theorem alphaBeta_of_inR {sigma v eps f : ℝ} (h : InR sigma eps f) :
    alphaBeta sigma v eps f = (shA v (f * isqrt2sig sigma), shB v (f * isqrt2sig sigma)) := by
  simp only [alphaBeta, meanLink_of_inR h, shA, shB]

theorem absDpy_of_inR {sigma v eps y f : ℝ} (h : InR sigma eps f) :
    absDpy sigma v eps y f = shG y (isqrt2sig sigma) v (f * isqrt2sig sigma) := by
  simp only [absDpy, alphaBeta_of_inR h, shG, shT, stdNormPdf_eq]

theorem absWdiag_of_inR {sigma v eps y f : ℝ} (h : InR sigma eps f) :
    absWdiag sigma v eps y f = -shW y (isqrt2sig sigma) v (f * isqrt2sig sigma) := by
  simp only [absWdiag, alphaBeta_of_inR h, shW, shT, shS, stdNormPdf_eq, i2var]
  ring

theorem absPy_of_inR {sigma v eps y f : ℝ} (hv : 0 < v) (h0 : 0 < y) (h1 : y < 1) (h : InR sigma eps f) :
    absPy sigma v eps y f = shL y v (f * isqrt2sig sigma) := by
  simp only [absPy, alphaBeta_of_inR h]
  exact log_beta_sh hv h0 h1

theorem inR_eventually_f {sigma eps f : ℝ} (h : InR sigma eps f) : ∀ᶠ x in nhds f, InR sigma eps x := by
  obtain ⟨h1, h2, h3, h4⟩ := h
  have hc : ContinuousAt (fun x => x * isqrt2sig sigma) f := by fun_prop
  have hP : ContinuousAt (fun x => Phi (x * isqrt2sig sigma)) f :=
    (continuous_Phi.continuousAt).comp (f := fun x => x * isqrt2sig sigma) hc
  filter_upwards [hc.eventually (lt_mem_nhds h1), hc.eventually (gt_mem_nhds h2),
    hP.eventually (lt_mem_nhds h3), hP.eventually (gt_mem_nhds h4)] with x a b c d using ⟨a, b, c, d⟩

theorem hasDerivAt_isqrt {sigma : ℝ} (hs : sigma ≠ 0) :
    HasDerivAt isqrt2sig (-isqrt2sig sigma / sigma) sigma := by
  have h1 : HasDerivAt (fun s : ℝ => s * Real.sqrt 2) (Real.sqrt 2) sigma :=
    ((hasDerivAt_id sigma).mul_const (Real.sqrt 2)).congr_deriv (by simp)
  have h0 : Real.sqrt 2 ≠ 0 := by positivity
  have h2 := h1.inv (mul_ne_zero hs h0)
  refine HasDerivAt.congr_deriv (f := isqrt2sig) (h2.congr_of_eventuallyEq ?_) ?_
  · filter_upwards with s
    simp [isqrt2sig]
  · simp only [isqrt2sig]
    field_simp

theorem inR_eventually_sigma {sigma eps f : ℝ} (hs : sigma ≠ 0) (h : InR sigma eps f) :
    ∀ᶠ x in nhds sigma, InR x eps f := by
  obtain ⟨h1, h2, h3, h4⟩ := h
  have hc : ContinuousAt (fun s => f * isqrt2sig s) sigma :=
    continuousAt_const.mul (hasDerivAt_isqrt hs).continuousAt
  have hP : ContinuousAt (fun s => Phi (f * isqrt2sig s)) sigma :=
    (continuous_Phi.continuousAt).comp (f := fun s => f * isqrt2sig s) hc
  filter_upwards [hc.eventually (lt_mem_nhds h1), hc.eventually (gt_mem_nhds h2),
    hP.eventually (lt_mem_nhds h3), hP.eventually (gt_mem_nhds h4)] with x a b c d using ⟨a, b, c, d⟩

theorem hasDerivAt_z_f (sigma f : ℝ) :
    HasDerivAt (fun x => x * isqrt2sig sigma) (isqrt2sig sigma) f :=
  ((hasDerivAt_id f).mul_const _).congr_deriv (by simp)

theorem hasDerivAt_z_sigma {sigma : ℝ} (hs : sigma ≠ 0) (f : ℝ) :
    HasDerivAt (fun s => f * isqrt2sig s) (f * (-isqrt2sig sigma / sigma)) sigma :=
  (hasDerivAt_isqrt hs).const_mul f

/-- The log-likelihood of one rating as a function of the latent value. -/
theorem hasDerivAt_shL_f {sigma v y f : ℝ} (hv : 0 < v) :
    HasDerivAt (fun x => shL y v (x * isqrt2sig sigma))
      (shG y (isqrt2sig sigma) v (f * isqrt2sig sigma)) f := by
  refine (hasDerivAt_shL (hasDerivAt_z_f sigma f) (hasDerivAt_const f v) hv).congr_deriv ?_
  simp only [shG, shT, absTmp]
  ring

theorem hasDerivAt_shG_f {sigma v y f : ℝ} (hv : 0 < v) :
    HasDerivAt (fun x => shG y (isqrt2sig sigma) v (x * isqrt2sig sigma))
      (-shW y (isqrt2sig sigma) v (f * isqrt2sig sigma)) f := by
  refine (hasDerivAt_shG (hasDerivAt_z_f sigma f) hv).congr_deriv ?_
  simp only [shW]
  ring

theorem sq_isqrt {sigma : ℝ} (hs : sigma ≠ 0) : isqrt2sig sigma ^ 2 = 1 / (2 * sigma ^ 2) := by
  have h2 : Real.sqrt 2 ^ 2 = 2 := Real.sq_sqrt (by norm_num)
  rw [isqrt2sig, div_pow, mul_pow, h2]; ring

theorem cub_isqrt {sigma : ℝ} (hs : sigma ≠ 0) :
    isqrt2sig sigma ^ 3 = 1 / (2 * Real.sqrt 2 * sigma ^ 3) := by
  have h2 : Real.sqrt 2 ^ 2 = 2 := Real.sq_sqrt (by norm_num)
  have h0 : Real.sqrt 2 ≠ 0 := by positivity
  have h3 : Real.sqrt 2 ^ 3 = 2 * Real.sqrt 2 := by rw [pow_succ, h2]
  rw [isqrt2sig, div_pow, mul_pow, h3]; ring

/-- The derivative of the `W` entry in the latent value is minus the value computed by `calc_W_dF`. -/
theorem hasDerivAt_shW_f {sigma v y f eps : ℝ} (hs : sigma ≠ 0) (hv : 0 < v) (h : InR sigma eps f) :
    HasDerivAt (fun x => shW y (isqrt2sig sigma) v (x * isqrt2sig sigma))
      (-absWdF1 sigma v eps y f) f := by
  refine (hasDerivAt_shW (hasDerivAt_const f (isqrt2sig sigma)) (hasDerivAt_z_f sigma f)
    (hasDerivAt_const f v) hv).congr_deriv ?_
  have e2 := sq_isqrt hs
  have e3 := cub_isqrt hs
  have e4 : isqrt2sig sigma ^ 4 = 1 / (4 * sigma ^ 4) := by
    rw [show isqrt2sig sigma ^ 4 = (isqrt2sig sigma ^ 2) ^ 2 by ring, e2]; ring
  simp only [absWdF1, alphaBeta_of_inR h, div_eq_z, stdNormPdf_eq]
  have d1 : v / (2 * Real.sqrt 2 * sigma * sigma * sigma) = v * isqrt2sig sigma ^ 3 := by rw [e3]; ring
  have d2 : f * f / (2 * sigma * sigma) = f * f * isqrt2sig sigma ^ 2 := by rw [e2]; ring
  have d3 : 3 * v * v * f / (4 * sigma * sigma * sigma * sigma) = 3 * v * v * f * isqrt2sig sigma ^ 4 := by
    rw [e4]; ring
  have d4 : v * v * v / (2 * Real.sqrt 2 * sigma * sigma * sigma) = v ^ 3 * isqrt2sig sigma ^ 3 := by
    rw [e3]; ring
  rw [d1, d2, d3, d4]
  simp only [shT, shS]
  ring

/-- The derivative of the `W` entry in the noise level is minus `dW_dSigma`. -/
theorem hasDerivAt_shW_sigma {sigma v y f eps : ℝ} (hs : sigma ≠ 0) (hv : 0 < v) (h : InR sigma eps f) :
    HasDerivAt (fun s => shW y (isqrt2sig s) v (f * isqrt2sig s)) (-absWdSigma1 sigma v eps y f) sigma := by
  refine (hasDerivAt_shW (hasDerivAt_isqrt hs) (hasDerivAt_z_sigma hs f)
    (hasDerivAt_const sigma v) hv).congr_deriv ?_
  have e2 := sq_isqrt hs
  have e3 := cub_isqrt hs
  simp only [absWdSigma1, alphaBeta_of_inR h, div_eq_z, stdNormPdf_eq]
  have d1 : v * f / (4 * Real.sqrt 2 * (sigma * sigma * sigma * sigma)) =
      v * f * isqrt2sig sigma ^ 3 / (2 * sigma) := by rw [e3]; ring
  have d2 : f * f / (sigma * sigma) = 2 * (f * f * isqrt2sig sigma ^ 2) := by rw [e2]; ring
  have d3 : v * v / (sigma * sigma * sigma) = 2 * v * v * isqrt2sig sigma ^ 2 / sigma := by
    rw [e2]; field_simp
  have d4 : v * v * v * f / (2 * Real.sqrt 2 * (sigma * sigma * sigma * sigma)) =
      v ^ 3 * f * isqrt2sig sigma ^ 3 / sigma := by rw [e3]; field_simp
  have d5 : -3 * f * f / (4 * (sigma * sigma)) = -3 / 2 * (f * f * isqrt2sig sigma ^ 2) := by
    rw [e2]; ring
  rw [d1, d2, d3, d4, d5]
  simp only [shT, shS]
  field_simp
  ring

theorem hasDerivAt_shL_v {v y z : ℝ} (hv : 0 < v) :
    HasDerivAt (fun w => shL y w z) (Phi z * Real.log y + (1 - Phi z) * Real.log (1 - y)
      + (-Phi z * digamma (shA v z) - (1 - Phi z) * digamma (shB v z) + digamma v)) v := by
  refine (hasDerivAt_shL (hasDerivAt_const v z) (hasDerivAt_id v) hv).congr_deriv ?_
  simp only [id]
  ring

theorem hasDerivAt_shL_sigma {sigma v y f eps : ℝ} (hs : sigma ≠ 0) (hv : 0 < v) (h : InR sigma eps f) :
    HasDerivAt (fun s => shL y v (f * isqrt2sig s)) (absGradSigma1 sigma v eps y f) sigma := by
  refine (hasDerivAt_shL (hasDerivAt_z_sigma hs f) (hasDerivAt_const sigma v) hv).congr_deriv ?_
  simp only [absGradSigma1, alphaBeta_of_inR h, div_eq_z, stdNormPdf_eq]
  have d : v * f * phi (f * isqrt2sig sigma) / (Real.sqrt 2 * sigma * sigma) =
      v * f * phi (f * isqrt2sig sigma) * isqrt2sig sigma / sigma := by
    rw [isqrt2sig]; field_simp
  rw [d]
  ring

theorem hasDerivAt_shW_v {v y c z : ℝ} (hv : 0 < v) :
    HasDerivAt (fun w => shW y c w z)
      (c ^ 2 * phi z * (z * shT y v z + v * phi z * shS v z) + v * c ^ 2 * phi z *
        (z * (-(trigamma (shA v z) * Phi z) + trigamma (shB v z) * (1 - Phi z)) + phi z * shS v z
          + v * phi z * (tetragamma (shA v z) * Phi z + tetragamma (shB v z) * (1 - Phi z)))) v := by
  refine (hasDerivAt_shW (hasDerivAt_const v c) (hasDerivAt_const v z) (hasDerivAt_id v) hv).congr_deriv ?_
  simp only [id]
  ring

/-- Derivative of a "last assignment wins" entry. -/
theorem hasDerivAt_lastValue {ι : Type} {κ : Type} [DecidableEq κ] (l : List ι) (k : ι → κ)
    (w : ι → ℝ → ℝ) (w' : ι → ℝ) (i : κ) (t : ℝ) (h : ∀ p ∈ l, HasDerivAt (w p) (w' p) t) :
    HasDerivAt (fun s => lastValue (l.map fun p => (k p, w p s)) i)
      (lastValue (l.map fun p => (k p, w' p)) i) t := by
  induction l using List.reverseRecOn with
  | nil => simpa [lastValue] using hasDerivAt_const t (0 : ℝ)
  | append_singleton l e ih =>
    have ih := ih fun p hp => h p (by simp [hp])
    have he := h e (by simp)
    simp only [List.map_append, List.map_cons, List.map_nil, lastValue_concat]
    by_cases hk : k e = i
    · simpa [hk] using he
    · simpa [hk] using ih

end Lop
