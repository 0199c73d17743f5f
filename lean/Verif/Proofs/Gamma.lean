import Verif.Spec.Gamma
import Mathlib.Analysis.SpecialFunctions.Complex.Analytic
import Mathlib.Analysis.Complex.CauchyIntegral
import Mathlib.Analysis.SpecialFunctions.Gamma.BohrMollerup
import Mathlib.Analysis.Convex.Deriv

/-! # `log Γ` is smooth on the positive reals; functional equations -/

namespace Lop

open Spec

theorem analyticAt_Gamma {x : ℝ} (hx : 0 < x) : AnalyticAt ℝ Real.Gamma x := by
  have h1 : AnalyticAt ℂ Complex.Gamma (x : ℂ) := by
    refine DifferentiableOn.analyticAt (s := {z : ℂ | 0 < z.re}) ?_ ?_
    · intro z hz
      refine (Complex.differentiableAt_Gamma z fun k h => ?_).differentiableWithinAt
      have hz' : 0 < z.re := hz
      rw [h] at hz'
      simp at hz'
      have : (0 : ℝ) ≤ k := Nat.cast_nonneg k
      linarith
    · exact (isOpen_lt continuous_const Complex.continuous_re).mem_nhds (by simpa using hx)
  have h2 := h1.re_ofReal
  refine h2.congr ?_
  filter_upwards with y
  rw [Complex.Gamma_ofReal, Complex.ofReal_re]

theorem analyticAt_logGamma {x : ℝ} (hx : 0 < x) : AnalyticAt ℝ logGamma x :=
  (analyticAt_Gamma hx).log (Real.Gamma_pos_of_pos hx)

theorem hasDerivAt_logGamma {x : ℝ} (hx : 0 < x) : HasDerivAt logGamma (digamma x) x :=
  (analyticAt_logGamma hx).differentiableAt.hasDerivAt

theorem hasDerivAt_digamma {x : ℝ} (hx : 0 < x) : HasDerivAt digamma (trigamma x) x :=
  (analyticAt_logGamma hx).deriv.differentiableAt.hasDerivAt

theorem hasDerivAt_trigamma {x : ℝ} (hx : 0 < x) : HasDerivAt trigamma (tetragamma x) x :=
  (analyticAt_logGamma hx).deriv.deriv.differentiableAt.hasDerivAt

theorem continuousAt_tetragamma {x : ℝ} (hx : 0 < x) : ContinuousAt tetragamma x :=
  (analyticAt_logGamma hx).deriv.deriv.deriv.continuousAt

/-- If `h (y + 1) = h y + k y` near `x`, the derivatives satisfy the same equation. -/
theorem deriv_shift {h h' k : ℝ → ℝ} {k' x : ℝ} (hx : 0 < x) (hh : ∀ y, 0 < y → HasDerivAt h (h' y) y)
    (hk : HasDerivAt k k' x) (he : ∀ y, 0 < y → h (y + 1) = h y + k y) : h' (x + 1) = h' x + k' := by
  have h1 : HasDerivAt (fun y => h (y + 1)) (h' (x + 1)) x := by
    have := (hh (x + 1) (by linarith)).comp x ((hasDerivAt_id x).add_const 1)
    exact this.congr_deriv (by simp)
  have h2 : HasDerivAt (fun y => h y + k y) (h' x + k') x := (hh x hx).add hk
  refine (h1.congr_of_eventuallyEq ?_).unique h2
  filter_upwards [lt_mem_nhds hx] with y hy
  exact (he y hy).symm

theorem digamma_add_one {x : ℝ} (hx : 0 < x) : digamma (x + 1) = digamma x + 1 / x := by
  refine deriv_shift hx (fun y hy => hasDerivAt_logGamma hy)
    ((Real.hasDerivAt_log hx.ne').congr_deriv (by simp)) fun y hy => ?_
  simp only [logGamma]
  rw [Real.Gamma_add_one hy.ne', Real.log_mul hy.ne' (Real.Gamma_pos_of_pos hy).ne']
  ring

theorem trigamma_add_one {x : ℝ} (hx : 0 < x) : trigamma (x + 1) = trigamma x - 1 / x ^ 2 := by
  rw [sub_eq_add_neg]
  refine deriv_shift (k := fun y => 1 / y) hx (fun y hy => hasDerivAt_digamma hy) ?_
    fun y hy => digamma_add_one hy
  have := hasDerivAt_inv hx.ne'
  simp only [one_div]
  exact this.congr_deriv (by simp)

theorem tetragamma_add_one {x : ℝ} (hx : 0 < x) : tetragamma (x + 1) = tetragamma x + 2 / x ^ 3 := by
  refine deriv_shift (k := fun y => -(1 / y ^ 2)) hx (fun y hy => hasDerivAt_trigamma hy) ?_
    fun y hy => by rw [trigamma_add_one hy]; ring
  have h1 : HasDerivAt (fun y : ℝ => y ^ 2) (2 * x) x := by
    have := hasDerivAt_pow 2 x
    exact this.congr_deriv (by simp)
  have h2 := (h1.inv (by positivity)).neg
  simp only [one_div]
  refine h2.congr_deriv ?_
  field_simp

theorem trigamma_nonneg {x : ℝ} (hx : 0 < x) : 0 ≤ trigamma x := by
  have hc : ConvexOn ℝ (Set.Ioi 0) logGamma := Real.convexOn_log_Gamma
  have hm : MonotoneOn digamma (Set.Ioi 0) :=
    hc.monotoneOn_deriv fun y hy => (hasDerivAt_logGamma hy).differentiableAt
  have h1 : derivWithin digamma (Set.Ioi 0) x = trigamma x :=
    ((hasDerivAt_digamma hx).hasDerivWithinAt).derivWithin (isOpen_Ioi.uniqueDiffWithinAt hx)
  rw [← h1]
  exact hm.derivWithin_nonneg

theorem trigamma_pos {x : ℝ} (hx : 0 < x) : 0 < trigamma x := by
  have h1 := trigamma_add_one hx
  have h2 := trigamma_nonneg (show 0 < x + 1 by linarith)
  have : 0 < 1 / x ^ 2 := by positivity
  linarith

end Lop
