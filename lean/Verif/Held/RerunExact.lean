import Verif.Held.Props
/-! C142: exactly how often a pipeline in a variable can be run. -/
namespace Nbdl.Held
variable {F V : Type}

/-- The functions of all `hold_lazy` are there. -/
def Whole (p : List (Kept F V)) : Prop := ∀ k ∈ p, k ≠ .lazy none

theorem sync_left : ∀ (p : List (Kept F V)), Whole p → (∃ f, Kept.lazy f ∈ p) →
    ∃ l, join How.sync p = some (p, l) ∧ l ≠ p := by
  intro p hw
  rintro ⟨f, hf⟩
  obtain ⟨i, hi, e⟩ := List.mem_iff_getElem.1 hf
  have hi' : p[i]? = some (.lazy f) := by rw [List.getElem?_eq_getElem hi, e]
  have hne : f ≠ none := by
    rintro rfl
    exact hw _ hf rfl
  obtain ⟨g, rfl⟩ := Option.ne_none_iff_exists'.1 hne
  obtain ⟨q, hq, hg⟩ := lazy_moved_violated p i g hi'
  rw [again] at hq
  cases hj : join How.sync p with
  | none => simp only [hj] at hq; cases hq
  | some rl =>
    obtain ⟨r, l⟩ := rl
    simp only [hj] at hq
    cases ha : again [How.sync] l with
    | none => simp only [ha] at hq; cases hq
    | some rs =>
      simp only [ha] at hq
      injection hq with hq
      injection hq with h1 h2
      subst h1
      refine ⟨l, rfl, fun hl => ?_⟩
      subst hl
      rw [again, hj] at ha
      simp only [again] at ha
      injection ha with ha
      rw [← ha] at h2
      injection h2 with h3 h4
      rw [← h3, hi'] at hg
      cases hg

/-- C142, exactly: a pipeline in a variable is the same one each time it is run if and only if it has no `hold_lazy`, or
is run at most once, and then by `run_sync`. -/
theorem rerun_exact (p : List (Kept F V)) (hw : Whole p) (hs : List How) :
    again hs p = some (hs.map fun _ => p) ↔ (∀ k ∈ p, ∀ f, k ≠ .lazy f) ∨ hs = [] ∨ hs = [.sync] := by
  constructor
  · intro h
    by_cases hl : ∀ k ∈ p, ∀ f, k ≠ .lazy f
    · exact .inl hl
    · refine .inr ?_
      have : ∃ f, Kept.lazy f ∈ p := by
        refine Classical.byContradiction fun hn => hl fun k hk f e => hn ⟨f, e ▸ hk⟩
      cases hs with
      | nil => exact .inl rfl
      | cons x hs =>
        refine .inr ?_
        cases x with
        | async =>
          obtain ⟨f, hf⟩ := this
          rw [lazy_not_run_violated p f hf hs] at h
          cases h
        | sync =>
          obtain ⟨l, e, hne⟩ := sync_left p hw this
          cases hs with
          | nil => rfl
          | cons y hs =>
            exfalso
            rw [again, e] at h
            simp only [List.map_cons] at h
            cases ha : again (y :: hs) l with
            | none => rw [ha] at h; cases h
            | some rs =>
              rw [ha] at h
              injection h with h
              injection h with _ h
              subst h
              rw [again] at ha
              have hjl : ∀ r l', join y l = some (r, l') → r = l := by
                clear ha hne e
                induction l with
                | nil => intro r l' k; rw [join] at k; cases k; rfl
                | cons a l ih =>
                  intro r l' k
                  rw [join] at k
                  cases e1 : joinStep y a with
                  | none => rw [e1] at k; cases k
                  | some ra =>
                    cases e2 : join y l with
                    | none => rw [e1, e2] at k; cases k
                    | some rl =>
                      obtain ⟨r1, l1⟩ := ra
                      obtain ⟨r2, l2⟩ := rl
                      rw [e1, e2] at k
                      cases k
                      have : r1 = a := by cases y <;> cases a <;> cases e1 <;> rfl
                      rw [this, ih _ _ e2]
              cases hj : join y l with
              | none => rw [hj] at ha; cases ha
              | some rl =>
                obtain ⟨r, l'⟩ := rl
                rw [hj] at ha
                simp only [] at ha
                cases hr : again hs l' with
                | none => rw [hr] at ha; cases ha
                | some rs =>
                  rw [hr] at ha
                  injection ha with ha
                  injection ha with h1 h2
                  exact hne (by rw [← hjl r l' hj, h1])
  · rintro (h | rfl | rfl)
    · exact rerun_partial p h hs
    · rfl
    · have : ∀ p : List (Kept F V), ∃ l, join How.sync p = some (p, l) := by
        intro p
        induction p with
        | nil => exact ⟨[], rfl⟩
        | cons a p ih =>
          obtain ⟨l, e⟩ := ih
          have : ∃ a', joinStep How.sync a = some (a, a') := by cases a <;> exact ⟨_, rfl⟩
          obtain ⟨a', e'⟩ := this
          exact ⟨a' :: l, by rw [join, e', e]⟩
      obtain ⟨l, e⟩ := this p
      rw [again, e]
      rfl

example : Whole ([.plain 1, .lazy (some 2), .hold 3] : List (Kept Nat Nat)) := by
  intro k hk; simp at hk; rcases hk with rfl | rfl | rfl <;> simp

end Nbdl.Held
