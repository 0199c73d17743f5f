import Verif.Model.Basic
import Mathlib.Tactic.Linarith
import Mathlib.Tactic.Common

namespace Lop

variable {α : Type*} [LinearOrder α]

theorem argmaxFrom_spec (l pre : List α) (best : Nat) (acc : α)
    (hb : pre[best]? = some acc) (hmax : ∀ (j : Nat) a, pre[j]? = some a → a ≤ acc)
    (hfirst : ∀ (j : Nat) a, j < best → pre[j]? = some a → a < acc) :
    ∃ m, (pre ++ l)[argmaxFrom l pre.length best acc]? = some m ∧
      (∀ (j : Nat) a, (pre ++ l)[j]? = some a → a ≤ m) ∧
      (∀ (j : Nat) a, j < argmaxFrom l pre.length best acc → (pre ++ l)[j]? = some a → a < m) := by
  induction l generalizing pre best acc with
  | nil =>
    refine ⟨acc, by simpa [argmaxFrom] using hb, by simpa using hmax, by simpa [argmaxFrom] using hfirst⟩
  | cons y ys ih =>
    have key : ∀ (b : Nat) (c : α), (pre ++ [y])[b]? = some c →
        (∀ (j : Nat) a, (pre ++ [y])[j]? = some a → a ≤ c) →
        (∀ (j : Nat) a, j < b → (pre ++ [y])[j]? = some a → a < c) →
        ∃ m, (pre ++ y :: ys)[argmaxFrom ys (pre.length + 1) b c]? = some m ∧
          (∀ (j : Nat) a, (pre ++ y :: ys)[j]? = some a → a ≤ m) ∧
          (∀ (j : Nat) a, j < argmaxFrom ys (pre.length + 1) b c → (pre ++ y :: ys)[j]? = some a → a < m) := by
      intro b c h1 h2 h3
      have := ih (pre ++ [y]) b c h1 h2 h3
      simpa using this
    have hbl : best < pre.length := by
      by_contra h
      rw [List.getElem?_eq_none (by omega)] at hb
      simp at hb
    have hsplit : ∀ (j : Nat) a, (pre ++ [y])[j]? = some a → (pre[j]? = some a ∧ j < pre.length) ∨ (j = pre.length ∧ a = y) := by
      intro j a h
      rcases lt_trichotomy j pre.length with hj | hj | hj
      · left
        rw [List.getElem?_append_left hj] at h
        exact ⟨h, hj⟩
      · right
        subst hj
        simp at h
        exact ⟨rfl, h.symm⟩
      · rw [List.getElem?_eq_none (by simp; omega)] at h
        simp at h
    unfold argmaxFrom
    split
    · rename_i hlt
      apply key
      · simp
      · intro j a h
        rcases hsplit j a h with ⟨h, _⟩ | ⟨_, h⟩
        · exact le_of_lt (lt_of_le_of_lt (hmax j a h) hlt)
        · exact h.le
      · intro j a hj h
        rcases hsplit j a h with ⟨h, _⟩ | ⟨h', h⟩
        · exact lt_of_le_of_lt (hmax j a h) hlt
        · omega
    · rename_i hlt
      apply key
      · rw [List.getElem?_append_left hbl]; exact hb
      · intro j a h
        rcases hsplit j a h with ⟨h, _⟩ | ⟨_, h⟩
        · exact hmax j a h
        · rw [h]; exact not_lt.mp hlt
      · intro j a hj h
        rcases hsplit j a h with ⟨h, _⟩ | ⟨h', h⟩
        · exact hfirst j a hj h
        · omega

/-- `npArgmax` returns the first position of a maximum. -/
theorem npArgmax_spec {l : List α} {i : Nat} (h : npArgmax l = .ok i) :
    ∃ m, l[i]? = some m ∧ (∀ a ∈ l, a ≤ m) ∧ (∀ (j : Nat) a, j < i → l[j]? = some a → a < m) := by
  cases l with
  | nil => simp [npArgmax] at h
  | cons x xs =>
    simp only [npArgmax, Except.ok.injEq] at h
    have := argmaxFrom_spec xs [x] 0 x (by simp) (by
        intro j a h
        cases j <;> simp_all) (by simp)
    simp only [List.length_singleton, List.singleton_append, h] at this
    obtain ⟨m, h1, h2, h3⟩ := this
    refine ⟨m, h1, ?_, h3⟩
    intro a ha
    obtain ⟨j, hj⟩ := List.mem_iff_getElem?.mp ha
    exact h2 j a hj

theorem npArgmax_isOk {l : List α} (h : l ≠ []) : ∃ i, npArgmax l = .ok i := by
  cases l with
  | nil => simp at h
  | cons x xs => exact ⟨_, rfl⟩

theorem argminFrom_spec (l pre : List α) (best : Nat) (acc : α)
    (hb : pre[best]? = some acc) (hmin : ∀ (j : Nat) a, pre[j]? = some a → acc ≤ a)
    (hfirst : ∀ (j : Nat) a, j < best → pre[j]? = some a → acc < a) :
    ∃ m, (pre ++ l)[argminFrom l pre.length best acc]? = some m ∧
      (∀ (j : Nat) a, (pre ++ l)[j]? = some a → m ≤ a) ∧
      (∀ (j : Nat) a, j < argminFrom l pre.length best acc → (pre ++ l)[j]? = some a → m < a) := by
  induction l generalizing pre best acc with
  | nil =>
    refine ⟨acc, by simpa [argminFrom] using hb, by simpa using hmin, by simpa [argminFrom] using hfirst⟩
  | cons y ys ih =>
    have key : ∀ (b : Nat) (c : α), (pre ++ [y])[b]? = some c →
        (∀ (j : Nat) a, (pre ++ [y])[j]? = some a → c ≤ a) →
        (∀ (j : Nat) a, j < b → (pre ++ [y])[j]? = some a → c < a) →
        ∃ m, (pre ++ y :: ys)[argminFrom ys (pre.length + 1) b c]? = some m ∧
          (∀ (j : Nat) a, (pre ++ y :: ys)[j]? = some a → m ≤ a) ∧
          (∀ (j : Nat) a, j < argminFrom ys (pre.length + 1) b c → (pre ++ y :: ys)[j]? = some a → m < a) := by
      intro b c h1 h2 h3
      have := ih (pre ++ [y]) b c h1 h2 h3
      simpa using this
    have hbl : best < pre.length := by
      by_contra h
      rw [List.getElem?_eq_none (by omega)] at hb
      simp at hb
    have hsplit : ∀ (j : Nat) a, (pre ++ [y])[j]? = some a → (pre[j]? = some a ∧ j < pre.length) ∨ (j = pre.length ∧ a = y) := by
      intro j a h
      rcases lt_trichotomy j pre.length with hj | hj | hj
      · left
        rw [List.getElem?_append_left hj] at h
        exact ⟨h, hj⟩
      · right
        subst hj
        simp at h
        exact ⟨rfl, h.symm⟩
      · rw [List.getElem?_eq_none (by simp; omega)] at h
        simp at h
    unfold argminFrom
    split
    · rename_i hlt
      apply key
      · simp
      · intro j a h
        rcases hsplit j a h with ⟨h, _⟩ | ⟨_, h⟩
        · exact le_of_lt (lt_of_lt_of_le hlt (hmin j a h))
        · exact h.ge
      · intro j a hj h
        rcases hsplit j a h with ⟨h, _⟩ | ⟨h', h⟩
        · exact lt_of_lt_of_le hlt (hmin j a h)
        · omega
    · rename_i hlt
      apply key
      · rw [List.getElem?_append_left hbl]; exact hb
      · intro j a h
        rcases hsplit j a h with ⟨h, _⟩ | ⟨_, h⟩
        · exact hmin j a h
        · rw [h]; exact not_lt.mp hlt
      · intro j a hj h
        rcases hsplit j a h with ⟨h, _⟩ | ⟨h', h⟩
        · exact hfirst j a hj h
        · omega

/-- `npArgmin` returns the first position of a minimum. -/
theorem npArgmin_spec {l : List α} {i : Nat} (h : npArgmin l = .ok i) :
    ∃ m, l[i]? = some m ∧ (∀ a ∈ l, m ≤ a) ∧ (∀ (j : Nat) a, j < i → l[j]? = some a → m < a) := by
  cases l with
  | nil => simp [npArgmin] at h
  | cons x xs =>
    simp only [npArgmin, Except.ok.injEq] at h
    have := argminFrom_spec xs [x] 0 x (by simp) (by
        intro j a h
        cases j <;> simp_all) (by simp)
    simp only [List.length_singleton, List.singleton_append, h] at this
    obtain ⟨m, h1, h2, h3⟩ := this
    refine ⟨m, h1, ?_, h3⟩
    intro a ha
    obtain ⟨j, hj⟩ := List.mem_iff_getElem?.mp ha
    exact h2 j a hj

theorem npArgmin_isOk {l : List α} (h : l ≠ []) : ∃ i, npArgmin l = .ok i := by
  cases l with
  | nil => simp at h
  | cons x xs => exact ⟨_, rfl⟩

end Lop
