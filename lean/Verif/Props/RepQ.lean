import Verif.Model.RepQ
import Verif.Proofs.RepQ
import Verif.Props.SampleSets

/-! # C54: representative queries -/

namespace Lop.Props

open Lop Lop.Spec

variable {P : Type*}

/-- C54, method 'sampled': when the call returns with training data, the points are as many as asked
for (at most those available), all from the pool and at different positions, and the queries are valid
queries on them of the requested size, as many as asked for or as many as there are. -/
theorem C54_sampled (numAlts : Option Nat) (numPts numQ : Nat) (xs : List P) (cand : Option (List P))
    (choice rng : Nat → Nat → List Nat) (fuel : Nat)
    (hc : ∀ n m, m ≤ n → ChoiceNoReplace (List.range n) m (choice n m))
    (hr : ∀ t i, ChoiceNoReplace
      (List.range (min (if xs.length < 4 then xs.length + (cand.getD []).length else xs.length) numPts))
      (repAlts numAlts) (rng t i))
    (pts : List P) (Q : List (List Nat))
    (h : repQ numAlts (.sampled numPts numQ) (some xs) cand choice rng fuel
      = .ok (some (some (pts, Q)))) :
    let pool := if xs.length < 4 then xs ++ cand.getD [] else xs
    pts.length = min pool.length numPts ∧ pts.Subperm pool ∧
    ValidQueries pts.length (repAlts numAlts) Q ∧
    Q.length = min numQ (pts.length.choose (repAlts numAlts)) := by
  intro pool
  have hlen : (if xs.length < 4 then xs.length + (cand.getD []).length else xs.length)
      = pool.length := by
    simp only [pool]
    split <;> simp
  rw [hlen] at hr
  have hpool : repPool xs cand = .ok pool := by
    simp only [repPool, pool]
    by_cases h4 : xs.length < 4
    · cases cand with
      | none => simp [repQ, repPool, h4] at h
      | some c => simp [h4]
    · simp [h4]
  simp only [repQ, hpool] at h
  split at h
  · cases h
  · cases h
  · rename_i q hq
    simp only [Except.ok.injEq, Option.some.injEq, Prod.mk.injEq] at h
    obtain ⟨rfl, rfl⟩ := h
    have hN := hc pool.length (min pool.length numPts) (min_le_left _ _)
    have hlt : ∀ i ∈ choice pool.length (min pool.length numPts), i < pool.length := by
      intro i hi
      exact List.mem_range.1 (hN.2.subset hi)
    have hmap : ((choice pool.length (min pool.length numPts)).filterMap fun i => pool[i]?).length
        = min pool.length numPts := by
      have : ∀ l : List Nat, (∀ i ∈ l, i < pool.length) →
          (l.filterMap fun i => pool[i]?).length = l.length := by
        intro l
        induction l with
        | nil => simp
        | cons a l ih =>
          intro hl
          have ha := hl a List.mem_cons_self
          simp [List.filterMap_cons, List.getElem?_eq_getElem ha,
            ih fun i hi => hl i (List.mem_cons_of_mem _ hi)]
      rw [this _ hlt, hN.1]
    have hsub : ((choice pool.length (min pool.length numPts)).filterMap fun i => pool[i]?).Subperm
        pool := by
      have h1 : ((choice pool.length (min pool.length numPts)).filterMap fun i => pool[i]?).Subperm
          ((List.range pool.length).filterMap fun i => pool[i]?) := by
        obtain ⟨l, hp, hs⟩ := hN.2
        exact ⟨_, hp.filterMap _, hs.filterMap _⟩
      have h2 : ((List.range pool.length).filterMap fun i => pool[i]?) = pool := by
        have : ∀ l : List P, ((List.range l.length).filterMap fun i => l[i]?) = l := by
          intro l
          induction l with
          | nil => rfl
          | cons a l ih =>
            rw [List.length_cons, List.range_succ_eq_map, List.filterMap_cons]
            simp only [List.getElem?_cons_zero, List.filterMap_map]
            congr 1
        exact this pool
      rwa [h2] at h1
    obtain ⟨hl, hrow, hpw⟩ := C12_unique_sets_sound (List.range (min pool.length numPts))
      List.nodup_range rng _ _ fuel hr q hq
    refine ⟨hmap, hsub, ⟨fun r hr => ?_, hpw⟩, ?_⟩
    · obtain ⟨a, b, c⟩ := hrow r hr
      refine ⟨a, b, fun i hi => ?_⟩
      rw [hmap]
      exact List.mem_range.1 (c i hi)
    · rw [hl, hmap]
      rfl

/-- C54, method 'stable': all `10 * C(n/10, k)` queries within the ten environments of the file; they
are valid queries on the points of the file and each stays inside one environment. The call raises
exactly when an environment has fewer points than the query size. -/
theorem C54_stable (numAlts : Option Nat) (file : List P) (xTrain cand : Option (List P))
    (choice rng : Nat → Nat → List Nat) (fuel : Nat) :
    let k := repAlts numAlts
    let per := file.length / 10
    (per < k → repQ numAlts (.stable file) xTrain cand choice rng fuel = .error .indexError) ∧
    (0 < k → k ≤ per → ∃ Q, repQ numAlts (.stable file) xTrain cand choice rng fuel
        = .ok (some (some (file, Q))) ∧
      ValidQueries file.length k Q ∧ Q.length = 10 * per.choose k ∧
      ∀ q ∈ Q, ∃ env < 10, ∀ i ∈ q, env * per ≤ i ∧ i < (env + 1) * per) := by
  intro k per
  have hsp := combos_spec (n := per) (List.range per) k List.pairwise_lt_range
    fun i hi => List.mem_range.1 hi
  obtain ⟨h1, h2, h3⟩ := hsp
  rw [List.length_range] at h3
  constructor
  · intro hlt
    have : combos (List.range per) k = [] := by
      rw [← List.length_eq_zero_iff, h3, Nat.choose_eq_zero_of_lt hlt]
    simp only [repQ]
    exact if_pos this
  · intro hk hle
    have hne : combos (List.range per) k ≠ [] := by
      intro he
      rw [← List.length_eq_zero_iff, h3] at he
      exact absurd (Nat.choose_eq_zero_iff.1 he) (not_lt.2 hle)
    refine ⟨_, by simp only [repQ]; exact if_neg hne, ?_, ?_, ?_⟩
    · have hsorted : ∀ q ∈ (List.range 10).flatMap fun i =>
          (combos (List.range per) k).map fun c => c.map (· + i * per),
          q.Pairwise (· < ·) ∧ q.length = k ∧ ∀ i ∈ q, i < file.length := by
        intro q hq
        simp only [List.mem_flatMap, List.mem_map, List.mem_range] at hq
        obtain ⟨e, he, c, hc, rfl⟩ := hq
        obtain ⟨g1, g2, g3⟩ := h1 c hc
        refine ⟨?_, by simp [g2], ?_⟩
        · rw [List.pairwise_map]
          exact g1.imp fun h => by omega
        · intro i hi
          simp only [List.mem_map] at hi
          obtain ⟨j, hj, rfl⟩ := hi
          have hj' := List.mem_range.1 (g3 j hj)
          have : e * per ≤ 9 * per := Nat.mul_le_mul_right _ (by omega)
          have : 10 * per ≤ file.length := Nat.mul_div_le _ _
          omega
      refine ⟨hsorted, ?_⟩
      have hne' : ((List.range 10).flatMap fun i =>
          (combos (List.range per) k).map fun c => c.map (· + i * per)).Pairwise (· ≠ ·) := by
        rw [List.pairwise_flatMap]
        refine ⟨fun i _ => ?_, ?_⟩
        · rw [List.pairwise_map]
          refine h2.imp fun hab he => hab ?_
          exact List.map_injective_iff.2 (fun a b h => by simpa using h) he
        · refine (List.pairwise_lt_range (n := 10)).imp fun {i j} hij => ?_
          intro a ha b hb heq
          obtain ⟨c, hc, rfl⟩ := List.mem_map.1 ha
          obtain ⟨c', hc', rfl⟩ := List.mem_map.1 hb
          obtain ⟨_, l1, m1⟩ := h1 c hc
          obtain ⟨_, l2, m2⟩ := h1 c' hc'
          cases c with
          | nil => simp at l1; omega
          | cons x c => cases c' with
            | nil => simp at l2; omega
            | cons y c' =>
              simp only [List.map_cons, List.cons.injEq] at heq
              have hx := List.mem_range.1 (m1 x List.mem_cons_self)
              have h5 : (i + 1) * per ≤ j * per := Nat.mul_le_mul_right _ hij
              have h6 := Nat.succ_mul i per
              have h7 := heq.1
              have h8 : (i + 1) * per = i * per + per := h6
              omega
      refine hne'.imp_of_mem fun ha hb h => ?_
      exact toFinset_ne_of_sorted (hsorted _ ha).1 (hsorted _ hb).1 h
    · rw [List.length_flatMap]
      simp only [List.length_map, List.map_const', List.sum_replicate, List.length_range]
      exact congrArg (10 * ·) h3
    · intro q hq
      simp only [List.mem_flatMap, List.mem_map, List.mem_range] at hq
      obtain ⟨e, he, c, hc, rfl⟩ := hq
      refine ⟨e, he, fun i hi => ?_⟩
      simp only [List.mem_map] at hi
      obtain ⟨j, hj, rfl⟩ := hi
      have hj' := List.mem_range.1 ((h1 c hc).2.2 j hj)
      have : (e + 1) * per = e * per + per := Nat.succ_mul e per
      have h9 : e * per = e * (file.length / 10) := rfl
      constructor
      · omega
      · omega

/-- C54, the remaining branches: no training data gives `(None, None)`, an unknown method and too few
points without candidates raise. -/
theorem C54_other (numAlts : Option Nat) (numPts numQ : Nat) (xs : List P) (xTrain cand : Option (List P))
    (choice rng : Nat → Nat → List Nat) (fuel : Nat) :
    repQ numAlts (.sampled numPts numQ) none cand choice rng fuel = .ok (some none) ∧
    repQ numAlts .other xTrain cand choice rng fuel = .error .valueError ∧
    (xs.length < 4 →
      repQ numAlts (.sampled numPts numQ) (some xs) none choice rng fuel = .error .valueError) := by
  refine ⟨rfl, rfl, fun h => ?_⟩
  simp [repQ, repPool, h]

/-- The query size is the attribute, except that 1 and a missing attribute give 2. -/
theorem C54_size (a : Option Nat) :
    (repAlts a = 2 ↔ a = none ∨ a = some 1 ∨ a = some 2) ∧ ∀ k, k ≠ 1 → repAlts (some k) = k := by
  rcases a with _ | _ | _ | _ | a <;> refine ⟨by simp [repAlts], fun k hk => ?_⟩ <;>
    (rcases k with _ | _ | k <;> first | rfl | exact absurd rfl hk)

/-- Twenty points, two per environment: ten queries. -/
example : repQ none (.stable (List.range 20)) none none (fun _ _ => []) (fun _ _ => []) 0
    = .ok (some (some (List.range 20, [[0, 1], [2, 3], [4, 5], [6, 7], [8, 9], [10, 11], [12, 13],
      [14, 15], [16, 17], [18, 19]]))) := by
  decide +kernel

/-- Four training points, three chosen, two queries. -/
example : repQ (some 1) (.sampled 3 2) (some [7, 8, 9, 10]) none (fun _ m => (List.range m).reverse)
      (fun t i => if (t + i) % 2 = 0 then [1, 0] else [2, 1]) 3
    = .ok (some (some ([9, 8, 7], [[0, 1], [1, 2]]))) := by
  decide +kernel

end Lop.Props
