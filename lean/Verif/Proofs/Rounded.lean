import Verif.Model.Rounded
import Verif.Proofs.Float
import Mathlib.Algebra.BigOperators.Group.List.Basic
import Mathlib.Algebra.Order.BigOperators.Group.List
import Mathlib.Algebra.Order.Ring.Pow
import Mathlib.Analysis.SpecialFunctions.Exp

/-! # Helper lemmas about sums and functions with rounding -/

namespace Lop

variable {A : FloatArith}

lemma FloatArith.zero (A : FloatArith) : A.rnd 0 = 0 := by
  have := A.nat 0 (by positivity)
  simpa using this

lemma FloatArith.one (A : FloatArith) : A.rnd 1 = 1 := by
  have := A.nat 1 (by norm_num)
  simpa using this

lemma FloatArith.two (A : FloatArith) : A.rnd 2 = 2 := by
  have := A.nat 2 (by norm_num)
  simpa using this

lemma FloatArith.nonneg (A : FloatArith) {x : ℝ} (h : 0 ≤ x) : 0 ≤ A.rnd x := by
  have := A.mono h
  rwa [A.zero] at this

lemma FloatArith.nonpos (A : FloatArith) {x : ℝ} (h : x ≤ 0) : A.rnd x ≤ 0 := by
  have := A.mono h
  rwa [A.zero] at this

lemma FloatArith.le_one (A : FloatArith) {x : ℝ} (h : x ≤ 1) : A.rnd x ≤ 1 := by
  have := A.mono h
  rwa [A.one] at this

lemma FloatArith.one_le (A : FloatArith) {x : ℝ} (h : 1 ≤ x) : 1 ≤ A.rnd x := by
  have := A.mono h
  rwa [A.one] at this

lemma FSum.repr {l : List ℝ} {s : ℝ} (h : FSum A l s) (hl : ∀ x ∈ l, A.rnd x = x) : A.rnd s = s := by
  cases h with
  | nil => exact A.zero
  | single x => exact hl s (by simp)
  | node _ _ _ _ _ => exact A.idem _

lemma FSum.ge {l : List ℝ} {s : ℝ} (h : FSum A l s) (hl : ∀ x ∈ l, 0 ≤ x ∧ A.rnd x = x) :
    0 ≤ s ∧ ∀ x ∈ l, x ≤ s := by
  induction h with
  | nil => simp
  | single x => simpa using (hl x (by simp)).1
  | @node l l₁ l₂ s₁ s₂ hp _ _ h1 h2 i1 i2 =>
    have m1 : ∀ x ∈ l₁, x ∈ l := fun x hx => hp.mem_iff.2 (by simp [hx])
    have m2 : ∀ x ∈ l₂, x ∈ l := fun x hx => hp.mem_iff.2 (by simp [hx])
    obtain ⟨a1, b1⟩ := i1 fun x hx => hl x (m1 x hx)
    obtain ⟨a2, b2⟩ := i2 fun x hx => hl x (m2 x hx)
    have r1 := h1.repr fun x hx => (hl x (m1 x hx)).2
    have r2 := h2.repr fun x hx => (hl x (m2 x hx)).2
    have g1 : s₁ ≤ A.rnd (s₁ + s₂) := by
      have := A.mono (show s₁ ≤ s₁ + s₂ by linarith)
      rwa [r1] at this
    have g2 : s₂ ≤ A.rnd (s₁ + s₂) := by
      have := A.mono (show s₂ ≤ s₁ + s₂ by linarith)
      rwa [r2] at this
    refine ⟨A.nonneg (by linarith), fun x hx => ?_⟩
    rcases List.mem_append.1 (hp.mem_iff.1 hx) with hx | hx
    · exact (b1 x hx).trans g1
    · exact (b2 x hx).trans g2

lemma FSum.zeros {l : List ℝ} {s : ℝ} (h : FSum A l s) (hl : ∀ x ∈ l, x = 0) : s = 0 := by
  induction h with
  | nil => rfl
  | single x => exact hl x (by simp)
  | @node l l₁ l₂ s₁ s₂ hp _ _ h1 h2 i1 i2 =>
    rw [i1 fun x hx => hl x (hp.mem_iff.2 (by simp [hx])), i2 fun x hx => hl x (hp.mem_iff.2 (by simp [hx])),
      add_zero, A.zero]

private lemma pow_upper {u : ℝ} (h0 : 0 ≤ u) (h1 : u ≤ 1) {k : Nat} (hk : k * u ≤ 1 / 2) :
    (1 + u) ^ k ≤ 1 + 2 * (k * u) := by
  have hb : 1 - k * u ≤ (1 - u) ^ k := by
    have := one_add_mul_le_pow (a := -u) (by linarith) k
    have e : (1 : ℝ) + -u = 1 - u := by ring
    rw [e] at this
    linarith
  have hm : (1 + u) ^ k * (1 - u) ^ k ≤ 1 := by
    rw [← mul_pow]
    exact pow_le_one₀ (by nlinarith) (by nlinarith)
  have hp : 0 ≤ (1 + u) ^ k := by positivity
  have h2 : (1 + u) ^ k * (1 - k * u) ≤ 1 := (mul_le_mul_of_nonneg_left hb hp).trans hm
  have h3 : 0 < 1 - k * u := by linarith
  have h4 : (1 + u) ^ k ≤ 1 / (1 - k * u) := by rwa [le_div_iff₀ h3]
  refine h4.trans ?_
  rw [div_le_iff₀ h3]
  have : 0 ≤ k * u := by positivity
  nlinarith

private lemma pow_lower {u : ℝ} (h1 : u ≤ 1) (k : Nat) : 1 - k * u ≤ (1 - u) ^ k := by
  have := one_add_mul_le_pow (a := -u) (by linarith) k
  have e : (1 : ℝ) + -u = 1 - u := by ring
  rw [e] at this
  linarith

/-- Relative error of a sum of nonnegative numbers. -/
lemma FSum.bounds {l : List ℝ} {s : ℝ} (h : FSum A l s) (hl : ∀ x ∈ l, 0 ≤ x ∧ A.rnd x = x)
    (hn : l.length ≤ 2 ^ 24) (hsle : l.sum ≤ 2 ^ 1000) :
    (1 - 1 / 2 ^ 53) ^ l.length * l.sum ≤ s ∧ s ≤ (1 + 1 / 2 ^ 53) ^ l.length * l.sum := by
  induction h with
  | nil => simp
  | single x =>
    have := (hl x (by simp)).1
    simp only [List.length_cons, List.length_nil, zero_add, pow_one, List.sum_cons, List.sum_nil, add_zero]
    constructor <;> nlinarith
  | @node l l₁ l₂ s₁ s₂ hp n1 n2 h1 h2 i1 i2 =>
    have m1 : ∀ x ∈ l₁, x ∈ l := fun x hx => hp.mem_iff.2 (by simp [hx])
    have m2 : ∀ x ∈ l₂, x ∈ l := fun x hx => hp.mem_iff.2 (by simp [hx])
    have hlen : l.length = l₁.length + l₂.length := by rw [hp.length_eq, List.length_append]
    have hsum : l.sum = l₁.sum + l₂.sum := by rw [hp.sum_eq, List.sum_append]
    have p1 : 1 ≤ l₁.length := List.length_pos_iff.2 n1
    have p2 : 1 ≤ l₂.length := List.length_pos_iff.2 n2
    have t1 : 0 ≤ l₁.sum := List.sum_nonneg fun x hx => (hl x (m1 x hx)).1
    have t2 : 0 ≤ l₂.sum := List.sum_nonneg fun x hx => (hl x (m2 x hx)).1
    have hsle' := hsle
    rw [hsum] at hsle'
    obtain ⟨a1, b1⟩ := i1 (fun x hx => hl x (m1 x hx)) (by omega) (le_trans (le_add_of_nonneg_right t2) hsle')
    obtain ⟨a2, b2⟩ := i2 (fun x hx => hl x (m2 x hx)) (by omega) (le_trans (le_add_of_nonneg_left t1) hsle')
    have r1 := h1.repr fun x hx => (hl x (m1 x hx)).2
    have r2 := h2.repr fun x hx => (hl x (m2 x hx)).2
    have g1 := (h1.ge fun x hx => hl x (m1 x hx)).1
    have g2 := (h2.ge fun x hx => hl x (m2 x hx)).1
    obtain ⟨k, hk⟩ : ∃ k, l.length = k + 1 := ⟨l.length - 1, by omega⟩
    have hu0 : (0 : ℝ) ≤ 1 / 2 ^ 53 := by positivity
    have hu1 : (1 : ℝ) / 2 ^ 53 ≤ 1 := by norm_num
    have up : s₁ + s₂ ≤ (1 + 1 / 2 ^ 53) ^ k * l.sum := by
      have c1 : (1 + 1 / 2 ^ 53 : ℝ) ^ l₁.length ≤ (1 + 1 / 2 ^ 53) ^ k :=
        pow_le_pow_right₀ (by linarith) (by omega)
      have c2 : (1 + 1 / 2 ^ 53 : ℝ) ^ l₂.length ≤ (1 + 1 / 2 ^ 53) ^ k :=
        pow_le_pow_right₀ (by linarith) (by omega)
      rw [hsum]
      have := mul_le_mul_of_nonneg_right c1 t1
      have := mul_le_mul_of_nonneg_right c2 t2
      linarith
    have lo : (1 - 1 / 2 ^ 53) ^ k * l.sum ≤ s₁ + s₂ := by
      have c1 : (1 - 1 / 2 ^ 53 : ℝ) ^ k ≤ (1 - 1 / 2 ^ 53) ^ l₁.length :=
        pow_le_pow_of_le_one (by linarith) (by linarith) (by omega)
      have c2 : (1 - 1 / 2 ^ 53 : ℝ) ^ k ≤ (1 - 1 / 2 ^ 53) ^ l₂.length :=
        pow_le_pow_of_le_one (by linarith) (by linarith) (by omega)
      rw [hsum]
      have := mul_le_mul_of_nonneg_right c1 t1
      have := mul_le_mul_of_nonneg_right c2 t2
      linarith
    have hkr : (k : ℝ) ≤ 2 ^ 24 := by
      have : k ≤ 2 ^ 24 := by omega
      exact_mod_cast this
    have hpk : (1 + 1 / 2 ^ 53 : ℝ) ^ k ≤ 2 := by
      have hku : (k : ℝ) * (1 / 2 ^ 53) ≤ 1 / 2 := by
        have := mul_le_mul_of_nonneg_right hkr hu0
        refine this.trans ?_
        norm_num
      have := pow_upper hu0 hu1 hku
      linarith
    have hs0 : 0 ≤ l.sum := by rw [hsum]; linarith
    have hbig : |s₁ + s₂| ≤ 2 ^ 1023 := by
      rw [abs_of_nonneg (by linarith)]
      refine up.trans ((mul_le_mul hpk hsle hs0 (by norm_num)).trans ?_)
      rw [← pow_succ']
      exact pow_le_pow_right₀ (by norm_num) (by norm_num)
    have herr := A.err_add s₁ s₂ r1 r2 hbig
    rw [abs_of_nonneg (show 0 ≤ s₁ + s₂ by linarith), abs_le] at herr
    rw [hk, pow_succ, pow_succ]
    constructor
    · have : (1 - 1 / 2 ^ 53) * ((1 - 1 / 2 ^ 53) ^ k * l.sum) ≤ (1 - 1 / 2 ^ 53) * (s₁ + s₂) :=
        mul_le_mul_of_nonneg_left lo (by linarith)
      calc (1 - 1 / 2 ^ 53) ^ k * (1 - 1 / 2 ^ 53) * l.sum = (1 - 1 / 2 ^ 53) * ((1 - 1 / 2 ^ 53) ^ k * l.sum) := by ring
        _ ≤ (1 - 1 / 2 ^ 53) * (s₁ + s₂) := this
        _ = (s₁ + s₂) - (s₁ + s₂) / 2 ^ 53 := by ring
        _ ≤ A.rnd (s₁ + s₂) := by linarith [herr.1]
    · have : (1 + 1 / 2 ^ 53) * (s₁ + s₂) ≤ (1 + 1 / 2 ^ 53) * ((1 + 1 / 2 ^ 53) ^ k * l.sum) :=
        mul_le_mul_of_nonneg_left up (by linarith)
      calc A.rnd (s₁ + s₂) ≤ (s₁ + s₂) + (s₁ + s₂) / 2 ^ 53 := by linarith [herr.2]
        _ = (1 + 1 / 2 ^ 53) * (s₁ + s₂) := by ring
        _ ≤ (1 + 1 / 2 ^ 53) * ((1 + 1 / 2 ^ 53) ^ k * l.sum) := this
        _ = (1 + 1 / 2 ^ 53) ^ k * (1 + 1 / 2 ^ 53) * l.sum := by ring

/-- Relative error of a sum of at most `2^24` nonnegative numbers. -/
lemma FSum.close {l : List ℝ} {s : ℝ} (h : FSum A l s) (hl : ∀ x ∈ l, 0 ≤ x ∧ A.rnd x = x)
    (hn : l.length ≤ 2 ^ 24) (hsle : l.sum ≤ 2 ^ 1000) : |s - l.sum| ≤ l.length / 2 ^ 52 * l.sum := by
  obtain ⟨a, b⟩ := h.bounds hl hn hsle
  have hu0 : (0 : ℝ) ≤ 1 / 2 ^ 53 := by positivity
  have hu1 : (1 : ℝ) / 2 ^ 53 ≤ 1 := by norm_num
  have hk : (l.length : ℝ) * (1 / 2 ^ 53) ≤ 1 / 2 := by
    have : (l.length : ℝ) ≤ 2 ^ 24 := by exact_mod_cast hn
    have := mul_le_mul_of_nonneg_right this hu0
    refine this.trans ?_
    norm_num
  have hup := pow_upper hu0 hu1 hk
  have hlo := pow_lower hu1 l.length
  have hs0 : 0 ≤ l.sum := List.sum_nonneg fun x hx => (hl x hx).1
  have h1 := mul_le_mul_of_nonneg_right hup hs0
  have h2 := mul_le_mul_of_nonneg_right hlo hs0
  have hm : 0 ≤ (l.length : ℝ) * l.sum := by positivity
  rw [abs_le]
  constructor
  · refine le_trans ?_ (sub_le_sub_right (h2.trans a) _)
    have e : (1 - (l.length : ℝ) * (1 / 2 ^ 53)) * l.sum - l.sum = -((l.length : ℝ) * l.sum) / 2 ^ 53 := by ring
    rw [e]
    have e2 : -((l.length : ℝ) / 2 ^ 52 * l.sum) = -((l.length : ℝ) * l.sum) / 2 ^ 52 := by ring
    rw [e2, neg_div, neg_div, neg_le_neg_iff]
    exact div_le_div_of_nonneg_left hm (by norm_num) (by norm_num)
  · refine (sub_le_sub_right (b.trans h1) _).trans (le_of_eq ?_)
    ring

/-- For at most `2^24` numbers the sum divided by the computed sum is close to 1. -/
lemma FSum.ratio_n {l : List ℝ} {s : ℝ} (h : FSum A l s) (hl : ∀ x ∈ l, 0 ≤ x ∧ x ≤ 1 ∧ A.rnd x = x)
    (hn : l.length ≤ 2 ^ 24) (hs : 1 ≤ s) : |l.sum / s - 1| ≤ l.length / 2 ^ 51 := by
  have hlr : (l.length : ℝ) ≤ 2 ^ 24 := by exact_mod_cast hn
  have hsum : l.sum ≤ l.length := by
    have := List.sum_le_card_nsmul l 1 fun x hx => (hl x hx).2.1
    rwa [nsmul_eq_mul, mul_one] at this
  have hc := h.close (fun x hx => ⟨(hl x hx).1, (hl x hx).2.2⟩) hn
    (hsum.trans (hlr.trans (pow_le_pow_right₀ (by norm_num) (by norm_num))))
  have hs0 : 0 ≤ l.sum := List.sum_nonneg fun x hx => (hl x hx).1
  have hsp : 0 < s := by linarith
  have hlen : 0 ≤ (l.length : ℝ) / 2 ^ 52 := by positivity
  have hlen2 : (l.length : ℝ) / 2 ^ 52 ≤ 1 / 2 := by
    rw [div_le_iff₀ (by positivity)]
    refine hlr.trans ?_
    norm_num
  have e : (l.length : ℝ) / 2 ^ 51 = 2 * (l.length / 2 ^ 52) := by ring
  rw [e]
  generalize (l.length : ℝ) / 2 ^ 52 = c at *
  have h2s : l.sum ≤ 2 * s := by
    have := (abs_le.1 hc).1
    nlinarith
  rw [abs_le] at hc ⊢
  rw [neg_le_sub_iff_le_add, ← sub_le_iff_le_add, le_div_iff₀ hsp, sub_le_iff_le_add, div_le_iff₀ hsp]
  constructor <;> nlinarith

/-- For at most `2^24` numbers the relative error is at most `2^-28`. -/
lemma FSum.ratio {l : List ℝ} {s : ℝ} (h : FSum A l s) (hl : ∀ x ∈ l, 0 ≤ x ∧ x ≤ 1 ∧ A.rnd x = x)
    (hn : l.length ≤ 2 ^ 24) (hs : 1 ≤ s) : |l.sum / s - 1| ≤ 1 / 2 ^ 28 := by
  have hlr : (l.length : ℝ) ≤ 2 ^ 24 := by exact_mod_cast hn
  have hsum : l.sum ≤ l.length := by
    have := List.sum_le_card_nsmul l 1 fun x hx => (hl x hx).2.1
    rwa [nsmul_eq_mul, mul_one] at this
  obtain ⟨a, b⟩ := h.bounds (fun x hx => ⟨(hl x hx).1, (hl x hx).2.2⟩) hn
    (hsum.trans (hlr.trans (pow_le_pow_right₀ (by norm_num) (by norm_num))))
  have hu0 : (0 : ℝ) ≤ 1 / 2 ^ 53 := by positivity
  have hu1 : (1 : ℝ) / 2 ^ 53 ≤ 1 := by norm_num
  have hk : (l.length : ℝ) * (1 / 2 ^ 53) ≤ 1 / 2 ^ 29 := by
    have : (l.length : ℝ) ≤ 2 ^ 24 := by exact_mod_cast hn
    have := mul_le_mul_of_nonneg_right this hu0
    refine this.trans ?_
    norm_num
  have hup := pow_upper hu0 hu1 (hk.trans (by norm_num))
  have hlo := pow_lower hu1 l.length
  have hs0 : 0 ≤ l.sum := List.sum_nonneg fun x hx => (hl x hx).1
  have e1 : (1 - 1 / 2 ^ 29) * l.sum ≤ s := le_trans (mul_le_mul_of_nonneg_right (by linarith) hs0) a
  have e2 : s ≤ (1 + 1 / 2 ^ 28) * l.sum := by
    refine b.trans (mul_le_mul_of_nonneg_right ?_ hs0)
    have : (2 : ℝ) * (1 / 2 ^ 29) = 1 / 2 ^ 28 := by norm_num
    linarith
  have hsp : 0 < s := by linarith
  rw [abs_le]
  constructor
  · rw [neg_le_sub_iff_le_add, ← sub_le_iff_le_add, le_div_iff₀ hsp]
    have : (1 - 1 / 2 ^ 28) * s ≤ (1 - 1 / 2 ^ 28) * ((1 + 1 / 2 ^ 28) * l.sum) :=
      mul_le_mul_of_nonneg_left e2 (by norm_num)
    nlinarith
  · rw [sub_le_iff_le_add, div_le_iff₀ hsp]
    have : (1 / 2 ^ 28 + 1) * ((1 - 1 / 2 ^ 29) * l.sum) ≤ (1 / 2 ^ 28 + 1) * s :=
      mul_le_mul_of_nonneg_left e1 (by norm_num)
    refine le_trans ?_ this
    have : (1 : ℝ) ≤ (1 / 2 ^ 28 + 1) * (1 - 1 / 2 ^ 29) := by norm_num
    nlinarith

/-- Sum of rounded quotients. -/
lemma sum_quot {l : List ℝ} {s : ℝ} (hs : 1 ≤ s) (hl : ∀ x ∈ l, 0 ≤ x ∧ x ≤ s) :
    |(l.map fun v => A.rnd (v / s)).sum - l.sum / s| ≤ l.sum / s / 2 ^ 53 + l.length * (1 / 2 ^ 1075) := by
  induction l with
  | nil => simp
  | cons x l ih =>
    have hx := hl x (by simp)
    have ih := ih fun y hy => hl y (by simp [hy])
    have hsp : 0 < s := by linarith
    have hq0 : 0 ≤ x / s := div_nonneg hx.1 hsp.le
    have hq1 : x / s ≤ 1 := by rw [div_le_one hsp]; exact hx.2
    have he := A.err (x / s) (by
      rw [abs_of_nonneg hq0]
      exact hq1.trans (one_le_pow₀ (by norm_num)))
    rw [abs_of_nonneg hq0] at he
    simp only [List.map_cons, List.sum_cons, List.length_cons]
    have e : A.rnd (x / s) + (l.map fun v => A.rnd (v / s)).sum - (x + l.sum) / s =
        (A.rnd (x / s) - x / s) + ((l.map fun v => A.rnd (v / s)).sum - l.sum / s) := by
      rw [add_div]
      ring
    rw [e]
    refine (abs_add_le _ _).trans ((add_le_add he ih).trans (le_of_eq ?_))
    push_cast
    rw [add_div]
    ring

lemma foldl_max_bounds (l : List ℝ) (a : ℝ) : a ≤ l.foldl max a ∧ (∀ x ∈ l, x ≤ l.foldl max a) ∧ l.foldl max a ∈ a :: l := by
  induction l generalizing a with
  | nil => simp
  | cons b l ih =>
    obtain ⟨h1, h2, h3⟩ := ih (max a b)
    rw [List.foldl_cons]
    refine ⟨(le_max_left _ _).trans h1, ?_, ?_⟩
    · intro x hx
      rcases List.mem_cons.1 hx with rfl | hx
      · exact (le_max_right _ _).trans h1
      · exact h2 x hx
    · rcases List.mem_cons.1 h3 with h | h
      · rw [h]
        rcases max_choice a b with h' | h' <;> rw [h'] <;> simp
      · simp [h]

lemma foldl_min_bounds (l : List ℝ) (a : ℝ) : l.foldl min a ≤ a ∧ (∀ x ∈ l, l.foldl min a ≤ x) ∧ l.foldl min a ∈ a :: l := by
  induction l generalizing a with
  | nil => simp
  | cons b l ih =>
    obtain ⟨h1, h2, h3⟩ := ih (min a b)
    rw [List.foldl_cons]
    refine ⟨h1.trans (min_le_left _ _), ?_, ?_⟩
    · intro x hx
      rcases List.mem_cons.1 hx with rfl | hx
      · exact h1.trans (min_le_right _ _)
      · exact h2 x hx
    · rcases List.mem_cons.1 h3 with h | h
      · rw [h]
        rcases min_choice a b with h' | h' <;> rw [h'] <;> simp
      · simp [h]

/-- The correctly rounded exponential is an `np.exp`. -/
noncomputable def roundedExp (A : FloatArith) : NpExp A where
  exp x := A.rnd (Real.exp x)
  mono _ _ h := A.mono (Real.exp_le_exp.2 h)
  zero := by rw [Real.exp_zero, A.one]
  nonneg x := A.nonneg (Real.exp_pos x).le
  repr x := A.idem _

/-- Summation from left to right is an `np.sum`. -/
noncomputable def leftSum (A : FloatArith) : NpSum A where
  sum l := match l with
    | [] => 0
    | a :: as => as.foldl (fun s x => A.rnd (s + x)) a
  isSum l := by
    have key : ∀ (as pre : List ℝ) (s : ℝ), pre ≠ [] → FSum A pre s →
        FSum A (pre ++ as) (as.foldl (fun s x => A.rnd (s + x)) s) := by
      intro as
      induction as with
      | nil => intro pre s _ h; simpa using h
      | cons x as ih =>
        intro pre s hp h
        rw [List.foldl_cons]
        have := ih (pre ++ [x]) _ (by simp) (.node (List.Perm.refl _) hp (by simp) h (.single x))
        simpa using this
    cases l with
    | nil => exact .nil
    | cons a as => exact key as [a] a (by simp) (.single a)

lemma FSum.singleton {a s : ℝ} (h : FSum A [a] s) : s = a := by
  generalize hla : [a] = la at h
  cases h with
  | nil => simp at hla
  | single x => simpa using hla.symm
  | node hp' n1' n2' _ _ =>
    subst hla
    have := hp'.length_eq
    have := List.length_pos_iff.2 n1'
    have := List.length_pos_iff.2 n2'
    simp at *
    omega

/-- A number that does not underflow stays positive. -/
lemma FloatArith.pos (A : FloatArith) {x : ℝ} (h : 1 / 2 ^ 1074 ≤ x) : 0 < A.rnd x := by
  refine lt_of_lt_of_le ?_ (A.mono h)
  have h0 : (0 : ℝ) ≤ 1 / 2 ^ 1074 := by positivity
  have hb : |(1 : ℝ) / 2 ^ 1074| ≤ 2 ^ 1023 := by
    rw [abs_of_nonneg h0]
    have h1 : (1 : ℝ) / 2 ^ 1074 ≤ 1 := by
      rw [div_le_one (by positivity)]
      exact one_le_pow₀ (by norm_num)
    exact h1.trans (one_le_pow₀ (by norm_num))
  have he := (abs_le.1 (A.err _ hb)).1
  rw [abs_of_nonneg h0] at he
  have e : (1 : ℝ) / 2 ^ 1075 = 1 / 2 ^ 1074 / 2 := by
    rw [div_div, ← pow_succ]
  rw [e] at he
  have hp : (0 : ℝ) < 1 / 2 ^ 1074 := by positivity
  generalize (1 : ℝ) / 2 ^ 1074 = t at *
  have : t / 2 ^ 53 < t / 2 := div_lt_div_of_pos_left hp (by norm_num) (by norm_num)
  linarith

/-- Rounding at most halves a number that is not subnormal. -/
lemma FloatArith.half_le (A : FloatArith) {x : ℝ} (h : 1 / 2 ^ 1022 ≤ x) (hb : x ≤ 2 ^ 1023) : x / 2 ≤ A.rnd x := by
  have h0 : 0 ≤ x := le_trans (by positivity) h
  have he := (abs_le.1 (A.err x (by rwa [abs_of_nonneg h0]))).1
  rw [abs_of_nonneg h0] at he
  have e : (1 : ℝ) / 2 ^ 1075 = 1 / 2 ^ 1022 / 2 ^ 53 := by
    rw [div_div, ← pow_add]
  rw [e] at he
  have h1 : (1 : ℝ) / 2 ^ 1022 / 2 ^ 53 ≤ x / 2 ^ 53 := div_le_div_of_nonneg_right h (by norm_num)
  generalize (1 : ℝ) / 2 ^ 1022 / 2 ^ 53 = t at *
  have : x / 2 ^ 53 + x / 2 ^ 53 ≤ x / 2 := by
    rw [← two_mul, ← mul_div_assoc, mul_comm, mul_div_assoc, div_eq_mul_one_div x 2]
    exact mul_le_mul_of_nonneg_left (by norm_num) h0
  linarith

lemma two_l_l_pos (A : FloatArith) {l : ℝ} (h : 1 / 2 ^ 500 ≤ l) : 0 < A.rnd (A.rnd (2 * l) * l) := by
  have hl : (0 : ℝ) < 1 / 2 ^ 500 := by positivity
  have h1 : (1 / 2 ^ 500 : ℝ) ≤ A.rnd (2 * (1 / 2 ^ 500)) := by
    have := A.half_le (x := 2 * (1 / 2 ^ 500)) (by
      rw [← mul_div_assoc, mul_one]
      calc (1 : ℝ) / 2 ^ 1022 ≤ 1 / 2 ^ 500 :=
            one_div_le_one_div_of_le (by positivity) (pow_le_pow_right₀ (by norm_num) (by norm_num))
        _ ≤ 2 / 2 ^ 500 := div_le_div_of_nonneg_right (by norm_num) (by positivity)) (by
      have h2 : (1 : ℝ) / 2 ^ 500 ≤ 1 := by
        rw [div_le_one (by positivity)]
        exact one_le_pow₀ (by norm_num)
      calc (2 : ℝ) * (1 / 2 ^ 500) ≤ 2 ^ 1 := by linarith
        _ ≤ 2 ^ 1023 := pow_le_pow_right₀ (by norm_num) (by norm_num))
    rwa [mul_div_cancel_left₀ _ (by norm_num : (2 : ℝ) ≠ 0)] at this
  have h2 : (1 / 2 ^ 500 : ℝ) ≤ A.rnd (2 * l) := h1.trans (A.mono (by linarith))
  refine A.pos ?_
  calc (1 : ℝ) / 2 ^ 1074 ≤ 1 / 2 ^ 1000 :=
        one_div_le_one_div_of_le (by positivity) (pow_le_pow_right₀ (by norm_num) (by norm_num))
    _ = (1 / 2 ^ 500) * (1 / 2 ^ 500) := by rw [div_mul_div_comm, ← pow_add, one_mul]
    _ ≤ _ := mul_le_mul h2 h hl.le (hl.le.trans h2)

lemma l_l_pos (A : FloatArith) {l : ℝ} (h : 1 / 2 ^ 500 ≤ l) : 0 < A.rnd (l * l) := by
  have hl : (0 : ℝ) < 1 / 2 ^ 500 := by positivity
  refine A.pos ?_
  calc (1 : ℝ) / 2 ^ 1074 ≤ 1 / 2 ^ 1000 :=
        one_div_le_one_div_of_le (by positivity) (pow_le_pow_right₀ (by norm_num) (by norm_num))
    _ = (1 / 2 ^ 500) * (1 / 2 ^ 500) := by rw [div_mul_div_comm, ← pow_add, one_mul]
    _ ≤ _ := mul_le_mul h h hl.le (hl.le.trans h)

lemma zipWith_swap (g : ℝ → ℝ → ℝ) (hg : ∀ a b, g a b = g b a) (x y : List ℝ) : x.zipWith g y = y.zipWith g x := by
  rw [List.zipWith_comm]
  congr 1
  funext a b
  exact hg b a

lemma addUpMatF_eq {n : Nat} (l : List ((Fin n × Fin n) × ℝ)) (M : Fin n → Fin n → ℝ) (a b : Fin n) :
    addUpMatF A l M a b = (l.filter fun e => (a, b) = e.1).foldl (fun s e => A.rnd (s + e.2)) (M a b) := by
  unfold addUpMatF
  induction l generalizing M with
  | nil => rfl
  | cons e l ih =>
    rw [List.foldl_cons, ih]
    by_cases h : (a, b) = e.1
    · rw [List.filter_cons_of_pos (by simpa using h), List.foldl_cons, if_pos h]
    · rw [List.filter_cons_of_neg (by simpa using h), if_neg h]

/-- Relative error of the rounding of a number that is not subnormal. -/
lemma FloatArith.rel (A : FloatArith) {x : ℝ} (h : 1 / 2 ^ 1022 ≤ x) (hb : x ≤ 2 ^ 1023) :
    (1 - 1 / 2 ^ 52) * x ≤ A.rnd x ∧ A.rnd x ≤ (1 + 1 / 2 ^ 52) * x := by
  have h0 : 0 ≤ x := le_trans (by positivity) h
  have he := abs_le.1 (A.err x (by rwa [abs_of_nonneg h0]))
  rw [abs_of_nonneg h0] at he
  have e : (1 : ℝ) / 2 ^ 1075 = 1 / 2 ^ 1022 / 2 ^ 53 := by
    rw [div_div, ← pow_add]
  rw [e] at he
  have h1 : (1 : ℝ) / 2 ^ 1022 / 2 ^ 53 ≤ x / 2 ^ 53 := div_le_div_of_nonneg_right h (by norm_num)
  generalize (1 : ℝ) / 2 ^ 1022 / 2 ^ 53 = t at *
  have e2 : x / 2 ^ 53 + x / 2 ^ 53 = 1 / 2 ^ 52 * x := by ring
  constructor <;> nlinarith [he.1, he.2]

end Lop
