import Verif.Model.GreedyK

/-! # C104: `select_greedy_k` -/

namespace Lop.Props

variable {ι : Type}

/-- C104, refutation of "selects alternatives until there are `num_alts`": for every learner of the library a call
that has anything to select raises `TypeError` and leaves the selection as it was. -/
theorem C104_library_raises (a : Arity) (ha : a ∈ libraryArities) (greedy : List ι → Except PyErr (ι × EReal))
    (cur : List ι) (numAlts : Int) (h : (cur.length : Int) < numAlts) :
    selectGreedyK a greedy cur numAlts = (cur, .error .typeError) := by
  obtain ⟨k, hk⟩ : ∃ k : Nat, (numAlts - cur.length).toNat = k + 1 := ⟨(numAlts - cur.length).toNat - 1, by omega⟩
  have hacc : a.accepts 2 = false := by
    simp only [libraryArities, List.mem_cons, List.not_mem_nil, or_false] at ha
    rcases ha with rfl | rfl <;> rfl
  simp [selectGreedyK, hk, greedyKLoop, hacc]

example : (⟨5, 1⟩ : Arity) ∈ libraryArities ∧ ((([3] : List Nat).length : Nat) : Int) < 2 := by decide

/-- C104: for any learner, a selection that is already large enough (also for a negative number) is returned
unchanged, one value `-inf` for each of its elements. -/
theorem C104_enough (a : Arity) (greedy : List ι → Except PyErr (ι × EReal))
    (cur : List ι) (numAlts : Int) (h : numAlts ≤ cur.length) :
    selectGreedyK a greedy cur numAlts = (cur, .ok (List.replicate cur.length ⊥)) := by
  have hk : (numAlts - cur.length).toNat = 0 := by omega
  simp [selectGreedyK, hk, greedyKLoop]

example : (-4 : Int) ≤ ((([3, 5] : List Nat).length : Nat) : Int) := by decide

theorem greedyKLoop_spec (a : Arity) (greedy : List ι → Except PyErr (ι × EReal)) (h2 : a.accepts 2 = true) :
    ∀ (k : Nat) (cur : List ι) (vals : List EReal), cur.length = vals.length →
      ∃ new : List (ι × EReal), (greedyKLoop a greedy k cur vals).1 = cur ++ new.map Prod.fst ∧
        (∀ (j : Nat) p, new[j]? = some p → greedy (cur ++ (new.take j).map Prod.fst) = .ok p) ∧
        ((greedyKLoop a greedy k cur vals).2 = .ok (vals ++ new.map Prod.snd) ∧ new.length = k ∨
          ∃ e, (greedyKLoop a greedy k cur vals).2 = .error e ∧ new.length < k ∧
            greedy (cur ++ new.map Prod.fst) = .error e)
  | 0, cur, vals, _ => ⟨[], by simp [greedyKLoop]⟩
  | k + 1, cur, vals, hl => by
    cases hg : greedy cur with
    | error e => exact ⟨[], by simp [greedyKLoop, h2, hg]⟩
    | ok p =>
      obtain ⟨i, v⟩ := p
      obtain ⟨new, h1, hs, h3⟩ := greedyKLoop_spec a greedy h2 k (cur ++ [i]) (vals ++ [v]) (by simp [hl])
      have hstep : greedyKLoop a greedy (k + 1) cur vals = greedyKLoop a greedy k (cur ++ [i]) (vals ++ [v]) := by
        rw [greedyKLoop]; simp [h2, hg]
      refine ⟨(i, v) :: new, by rw [hstep, h1]; simp, ?_, ?_⟩
      · intro j p hj
        cases j with
        | zero => simp at hj; subst hj; simpa using hg
        | succ j => simpa using hs j p (by simpa using hj)
      · rw [hstep]
        rcases h3 with ⟨h, hk⟩ | ⟨e, h, hk, he⟩
        · exact .inl ⟨by rw [h]; simp, by simp [hk]⟩
        · exact .inr ⟨e, h, by simpa using hk, by simpa using he⟩

/-- C104 for a learner whose `select_greedy` does accept the selection and the data: every added alternative is the
greedy choice for the selection that precedes it; a call that returns has added exactly the missing ones and gives
`-inf` for the old and the greedy value for the new ones; an exception comes from the greedy choice for the
selection as it was left, which is still too short. -/
theorem C104_accepting_partial (a : Arity) (greedy : List ι → Except PyErr (ι × EReal)) (h2 : a.accepts 2 = true)
    (cur : List ι) (numAlts : Int) (hn : (cur.length : Int) ≤ numAlts) :
    ∃ new : List (ι × EReal), (selectGreedyK a greedy cur numAlts).1 = cur ++ new.map Prod.fst ∧
      (∀ (j : Nat) p, new[j]? = some p → greedy (cur ++ (new.take j).map Prod.fst) = .ok p) ∧
      ((selectGreedyK a greedy cur numAlts).2 = .ok (List.replicate cur.length ⊥ ++ new.map Prod.snd) ∧
          (((cur ++ new.map Prod.fst).length : Nat) : Int) = numAlts ∨
        ∃ e, (selectGreedyK a greedy cur numAlts).2 = .error e ∧
          (((cur ++ new.map Prod.fst).length : Nat) : Int) < numAlts ∧
          greedy (cur ++ new.map Prod.fst) = .error e) := by
  obtain ⟨new, h1, hs, h3⟩ := greedyKLoop_spec a greedy h2 (numAlts - cur.length).toNat cur
    (List.replicate cur.length ⊥) (by simp)
  refine ⟨new, h1, hs, ?_⟩
  rcases h3 with ⟨h, hk⟩ | ⟨e, h, hk, he⟩
  · exact .inl ⟨h, by simp; omega⟩
  · exact .inr ⟨e, h, by simp; omega, he⟩

/-- A learner with a two-parameter `select_greedy` that proposes the length of the selection, twice. -/
example : selectGreedyK (ι := Nat) ⟨2, 0⟩ (fun c => if c.length < 3 then .ok (c.length, 0) else .error .exception)
    [7] 3 = ([7, 1, 2], .ok [⊥, 0, 0]) ∧ (⟨2, 0⟩ : Arity).accepts 2 = true := by
  constructor
  · simp [selectGreedyK, greedyKLoop, Arity.accepts, show ((3:Int) - 1).toNat = 2 from rfl]
  · rfl

end Lop.Props
