import Verif.Proofs.CovPSD
import Mathlib.Tactic.NormNum

/-! Entries of the covariance matrices. -/

namespace Lop

open Matrix Spec

variable {d n m : Nat}

theorem noiseTerm_off {noise : ℝ} {X : Fin n → Pt d} {Y : Fin m → Pt d} {i : Fin n} {j : Fin m}
    (h : ¬ NoiseSpot X Y i j) : noiseTerm noise X Y i j = 0 := by
  simp only [noiseTerm, Matrix.of_apply]
  exact if_neg h

theorem noiseTerm_on {noise : ℝ} {X : Fin n → Pt d} {Y : Fin m → Pt d} {i : Fin n} {j : Fin m}
    (h : NoiseSpot X Y i j) : noiseTerm noise X Y i j = noise := by
  simp only [noiseTerm, Matrix.of_apply]
  exact if_pos h

theorem rbfCov_ok {s l noise : ℝ} {X : Fin n → Pt d} {Y : Fin m → Pt d} (h : ¬ (n = m ∧ n = 0)) :
    rbfCov s l noise X Y = .ok (Matrix.of fun i j =>
      rbfEval s l (X i) (Y j) + noiseTerm noise X Y i j) := by
  unfold rbfCov
  rw [if_neg h]

/-- Inversion of `DualKern.cov`. -/
theorem dual_cov_inv {op : KOp} {a b : KExpr ℝ (Pt d)} {X : Fin n → Pt d} {Y : Fin m → Pt d}
    {c} (h : (KExpr.dual op a b).cov X Y = .ok c) :
    ∃ ca cb, a.cov X Y = .ok ca ∧ b.cov X Y = .ok cb ∧
      ∀ i j, c i j = match op with | .add => ca i j + cb i j | .mul => ca i j * cb i j := by
  cases ha : a.cov X Y with
  | error e => simp [KExpr.cov, ha] at h
  | ok ca =>
    cases hb : b.cov X Y with
    | error e => simp [KExpr.cov, ha, hb] at h
    | ok cb =>
      refine ⟨ca, cb, rfl, rfl, fun i j => ?_⟩
      simp only [KExpr.cov, ha, hb, Except.ok.injEq] at h
      subst h
      cases op <;> rfl

/-- Away from the noise positions the matrix has the pointwise values. -/
theorem cov_entry (k : KExpr ℝ (Pt d)) (hnz : AllLeaves NotZeroed k) (X : Fin n → Pt d)
    (Y : Fin m → Pt d) {c} (hc : k.cov X Y = .ok c) (i : Fin n) (j : Fin m)
    (h : ¬ NoiseSpot X Y i j) : c i j = k.eval (X i) (Y j) := by
  induction k generalizing c with
  | leaf k =>
    cases k with
    | rbf s l noise =>
      simp only [KExpr.cov, KLeaf.cov] at hc
      rw [rbfCov_ok (by have := i.pos; omega)] at hc
      cases hc
      simp [noiseTerm_off h, KExpr.eval, KLeaf.eval]
    | zeroed => exact absurd hnz (by simp [AllLeaves, NotZeroed])
    | linear s b c =>
      simp only [KExpr.cov, KLeaf.cov] at hc
      cases hc
      rfl
    | periodic s l p =>
      simp only [KExpr.cov, KLeaf.cov] at hc
      cases hc
      rfl
  | dual op a b iha ihb =>
    obtain ⟨ca, cb, ha, hb, hcc⟩ := dual_cov_inv hc
    rw [hcc i j]
    cases op <;> simp only [KExpr.eval, iha hnz.1 ha, ihb hnz.2 hb]

/-- At a noise position a sum of kernels adds the total noise. -/
theorem cov_entry_noise (k : KExpr ℝ (Pt d)) (hnz : AllLeaves NotZeroed k) (hs : OnlySums k)
    (X : Fin n → Pt d) (Y : Fin m → Pt d) {c} (hc : k.cov X Y = .ok c) (i : Fin n) (j : Fin m)
    (h : NoiseSpot X Y i j) : c i j = k.eval (X i) (Y j) + noiseSum k := by
  induction k generalizing c with
  | leaf k =>
    cases k with
    | rbf s l noise =>
      simp only [KExpr.cov, KLeaf.cov] at hc
      rw [rbfCov_ok (by have := i.pos; omega)] at hc
      cases hc
      simp [noiseTerm_on h, KExpr.eval, KLeaf.eval, noiseSum, noiseOf]
    | zeroed => exact absurd hnz (by simp [AllLeaves, NotZeroed])
    | linear s b c =>
      simp only [KExpr.cov, KLeaf.cov] at hc
      cases hc
      simp [KExpr.eval, KLeaf.eval, noiseSum, noiseOf, linEval]
    | periodic s l p =>
      simp only [KExpr.cov, KLeaf.cov] at hc
      cases hc
      simp [KExpr.eval, KLeaf.eval, noiseSum, noiseOf, perEval]
  | dual op a b iha ihb =>
    obtain ⟨ca, cb, ha, hb, hcc⟩ := dual_cov_inv hc
    cases op with
    | mul => exact absurd hs (by simp [OnlySums])
    | add =>
      rw [hcc i j]
      simp only [KExpr.eval, noiseSum, iha hnz.1 hs.1 ha, ihb hnz.2 hs.2 hb]
      ring

/-- Whenever there are entries, `cov` returns. -/
theorem cov_returns (k : KExpr ℝ (Pt d)) (X : Fin n → Pt d) (Y : Fin m → Pt d) (hn : 0 < n) :
    ∃ c, k.cov X Y = .ok c := by
  induction k with
  | leaf k =>
    cases k with
    | rbf s l noise => exact ⟨_, rbfCov_ok (by omega)⟩
    | zeroed s l z noise =>
      have h1 : ¬ n = 0 := by omega
      have h2 : ¬ (n = m ∧ n = 0) := by omega
      have h3 : ¬ (n = 1 ∧ n = 0) := by omega
      have h4 : ¬ (1 = m ∧ 1 = 0) := by omega
      simp only [KExpr.cov, KLeaf.cov, zeroedCov, if_neg h1, rbfCov_ok h2, rbfCov_ok h3, rbfCov_ok h4]
      exact ⟨_, rfl⟩
    | linear s b c => exact ⟨_, rfl⟩
    | periodic s l p => exact ⟨_, rfl⟩
  | dual op a b iha ihb =>
    obtain ⟨ca, ha⟩ := iha
    obtain ⟨cb, hb⟩ := ihb
    simp only [KExpr.cov, ha, hb]
    exact ⟨_, rfl⟩

/-- Entries of the zeroed kernel's covariance. -/
theorem zeroedCov_entry {s l noise : ℝ} {z : Option (Pt d)} {X : Fin n → Pt d} {Y : Fin m → Pt d}
    {c} (hc : (KExpr.leaf (.zeroed s l z noise)).cov X Y = .ok c) (i : Fin n) (j : Fin m) :
    c i j = (rbfEval s l (X i) (Y j) + noiseTerm noise X Y i j)
      - (rbfEval s l (X i) (zeroPt z) + noiseTerm noise X (fun _ : Fin 1 => zeroPt z) i 0)
        * (rbfEval s l (zeroPt z) (Y j) + noiseTerm noise (fun _ : Fin 1 => zeroPt z) Y 0 j)
        / (s * s) := by
  have hn := i.pos
  have h1 : ¬ n = 0 := by omega
  have h2 : ¬ (n = m ∧ n = 0) := by omega
  have h3 : ¬ (n = 1 ∧ n = 0) := by omega
  have h4 : ¬ (1 = m ∧ 1 = 0) := by omega
  simp only [KExpr.cov, KLeaf.cov, zeroedCov, if_neg h1, rbfCov_ok h2, rbfCov_ok h3,
    rbfCov_ok h4] at hc
  cases hc
  rfl

theorem rbfEval_self (s l : ℝ) (u : Pt d) : rbfEval s l u u = s * s := by
  simp [rbfEval, sqDist]

theorem rbfEval_comm (s l : ℝ) (u v : Pt d) : rbfEval s l u v = rbfEval s l v u := by
  have : sqDist u v = sqDist v u := Finset.sum_congr rfl fun k _ => by ring
  rw [rbfEval, rbfEval, this]

theorem noiseTerm_zero (X : Fin n → Pt d) (Y : Fin m → Pt d) (i : Fin n) (j : Fin m) :
    noiseTerm 0 X Y i j = 0 := by
  simp [noiseTerm]

end Lop
