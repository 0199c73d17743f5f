import Verif.Model.Sampling
import Mathlib.MeasureTheory.Measure.Lebesgue.Basic
import Mathlib.Tactic.Linarith
import Mathlib.Tactic.Ring
import Mathlib.Tactic.FieldSimp
import Mathlib.Tactic.Positivity

namespace Lop

theorem softmax_shift {n : Nat} (r : Fin n → ℝ) (p m : ℝ) (i : Fin n) :
    Real.exp ((r i - m) * p) / ∑ j, Real.exp ((r j - m) * p) =
      Real.exp (p * r i) / ∑ j, Real.exp (p * r j) := by
  have h : ∀ j, Real.exp ((r j - m) * p) = Real.exp (p * r j) * Real.exp (-(m * p)) := by
    intro j; rw [← Real.exp_add]; congr 1; ring
  simp only [h]
  rw [← Finset.sum_mul]
  rw [mul_div_mul_right _ _ (Real.exp_pos _).ne']

theorem softmax_denom_pos {n : Nat} (r : Fin n → ℝ) (p : ℝ) (i : Fin n) :
    0 < ∑ j, Real.exp (p * r j) :=
  Finset.sum_pos (fun _ _ => Real.exp_pos _) ⟨i, Finset.mem_univ _⟩

theorem cdf_mono {n : Nat} {pdf : Fin n → ℝ} (hp : ∀ i, 0 ≤ pdf i) {i j : Fin n} (h : i ≤ j) :
    ∑ k ∈ Finset.Iic i, pdf k ≤ ∑ k ∈ Finset.Iic j, pdf k :=
  Finset.sum_le_sum_of_subset_of_nonneg (Finset.Iic_subset_Iic.mpr h) fun _ _ _ => hp _

theorem cdf_split {n : Nat} (pdf : Fin n → ℝ) (i : Fin n) :
    ∑ k ∈ Finset.Iic i, pdf k = ∑ k ∈ Finset.Iio i, pdf k + pdf i := by
  rw [← Finset.Iio_insert, Finset.sum_insert (by simp), add_comm]

theorem cdf_lt_of_lt {n : Nat} {pdf : Fin n → ℝ} (hp : ∀ i, 0 ≤ pdf i) {i j : Fin n} (h : i < j) :
    ∑ k ∈ Finset.Iic i, pdf k ≤ ∑ k ∈ Finset.Iio j, pdf k :=
  Finset.sum_le_sum_of_subset_of_nonneg
    (fun x hx => by simp only [Finset.mem_Iic, Finset.mem_Iio] at *; exact lt_of_le_of_lt hx h)
    fun _ _ _ => hp _

/-- Exactly the uniforms in a half-open interval of length `pdf i` select `i`. -/
theorem npChoiceIdx_eq_iff {n : Nat} {pdf : Fin n → ℝ} (hp : ∀ i, 0 ≤ pdf i) (h1 : ∑ i, pdf i = 1)
    {u : ℝ} (hu : 0 ≤ u) (i : Fin n) :
    npChoiceIdx pdf u = i ↔ ∑ j ∈ Finset.Iio i, pdf j ≤ u ∧ u < ∑ j ∈ Finset.Iic i, pdf j := by
  unfold npChoiceIdx
  simp only [h1, div_one]
  set A := Finset.univ.filter fun i : Fin n => (∑ j ∈ Finset.Iic i, pdf j) ≤ u with hA
  have hmem : ∀ j, j ∈ A ↔ ∑ k ∈ Finset.Iic j, pdf k ≤ u := fun j => by simp [hA]
  constructor
  · intro hcard
    constructor
    · rcases Nat.eq_zero_or_pos i.1 with h0 | hpos
      · have : Finset.Iio i = ∅ := by
          ext x
          simp only [Finset.mem_Iio, Finset.notMem_empty, iff_false, not_lt]
          exact Fin.le_def.mpr (by omega)
        rw [this]; simpa using hu
      · let j : Fin n := ⟨i.1 - 1, by omega⟩
        have hj : j ∈ A := by
          by_contra hjA
          have hsub : A ⊆ Finset.Iio j := by
            intro x hx
            rw [Finset.mem_Iio]
            by_contra hle
            push Not at hle
            rw [hmem] at hx hjA
            exact hjA ((cdf_mono hp hle).trans hx)
          have := Finset.card_le_card hsub
          rw [Fin.card_Iio, hcard] at this
          simp only [j] at this
          omega
        have hIio : Finset.Iio i = Finset.Iic j := by
          ext x
          simp only [Finset.mem_Iio, Finset.mem_Iic, Fin.lt_def, Fin.le_def, j]
          omega
        rw [hIio]; exact (hmem j).mp hj
    · by_contra hle
      push Not at hle
      have hsub : Finset.Iic i ⊆ A := by
        intro x hx
        rw [Finset.mem_Iic] at hx
        rw [hmem]
        exact (cdf_mono hp hx).trans hle
      have := Finset.card_le_card hsub
      rw [Fin.card_Iic, hcard] at this
      omega
  · rintro ⟨hlo, hhi⟩
    have : A = Finset.Iio i := by
      ext x
      rw [hmem, Finset.mem_Iio]
      constructor
      · intro hx
        by_contra hle
        push Not at hle
        exact absurd (lt_of_lt_of_le hhi ((cdf_mono hp hle).trans hx)) (lt_irrefl _)
      · intro hx
        exact (cdf_lt_of_lt hp hx).trans hlo
    rw [this, Fin.card_Iio]

theorem npChoiceIdx_lt {n : Nat} {pdf : Fin n → ℝ} (h1 : ∑ i, pdf i = 1) {u : ℝ} (hu : u < 1) :
    npChoiceIdx pdf u < n := by
  unfold npChoiceIdx
  simp only [h1, div_one]
  have hn : 0 < n := by
    rcases Nat.eq_zero_or_pos n with h | h
    · subst h; simp at h1
    · exact h
  let last : Fin n := ⟨n - 1, by omega⟩
  have : last ∉ (Finset.univ.filter fun i : Fin n => (∑ j ∈ Finset.Iic i, pdf j) ≤ u) := by
    simp only [Finset.mem_filter, Finset.mem_univ, true_and, not_le]
    have : Finset.Iic last = Finset.univ := by
      ext x; simp only [Finset.mem_Iic, Finset.mem_univ, iff_true, Fin.le_def, last]; omega
    rw [this, h1]; exact hu
  have := Finset.card_lt_univ_of_notMem this
  simpa using this

/-! Metropolis-Hastings -/

variable {X : Type*}

open Classical in
theorem mhLoop_eq {ll : X → EReal} {prop : Nat → X → X} {u : Nat → ℝ} {burn : Nat}
    (chain : Nat → X)
    (hc : ∀ i, chain (i + 1) =
      if ENNReal.ofReal (u i) < EReal.exp (ll (prop i (chain i)) - ll (chain i)) then prop i (chain i)
      else chain i) :
    ∀ n i, mhLoop ll prop u burn n i (chain i, ll (chain i)) =
      ((List.range' i n).filter (fun j => decide (burn ≤ j))).map fun j => chain (j + 1) := by
  intro n
  induction n with
  | zero => intro i; rfl
  | succ n ih =>
    intro i
    have hstep : mhStep ll prop u i (chain i, ll (chain i)) = (chain (i + 1), ll (chain (i + 1))) := by
      unfold mhStep
      simp only
      rw [hc i]
      split <;> rfl
    unfold mhLoop
    simp only [hstep, ih (i + 1)]
    rw [List.range'_succ, List.filter_cons]
    by_cases h : burn ≤ i
    · simp [h]
    · simp [h]

theorem range'_filter_ge (burn n : Nat) :
    (List.range' 0 (n + burn)).filter (fun j => decide (burn ≤ j)) = List.range' burn n := by
  have h : List.range' 0 (n + burn) = List.range' 0 burn ++ List.range' burn n := by
    rw [Nat.add_comm n burn, ← List.range'_append_1]; simp
  rw [h, List.filter_append, List.filter_eq_nil_iff.mpr, List.filter_eq_self.mpr]
  · simp
  · intro a ha
    rw [List.mem_range'_1] at ha
    simpa using ha.1
  · intro a ha
    rw [List.mem_range'_1] at ha
    simp; omega

theorem accept_iff_real {a b u : ℝ} (hu : 0 ≤ u) :
    ENNReal.ofReal u < EReal.exp ((b : EReal) - (a : EReal)) ↔ u < Real.exp (b - a) := by
  rw [← EReal.coe_sub, EReal.exp_coe, ENNReal.ofReal_lt_ofReal_iff (Real.exp_pos _)]

end Lop
