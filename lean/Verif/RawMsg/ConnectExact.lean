import Verif.RawMsg.Props
/-!
# The attempts to connect, exactly (C72)
-/
namespace Nbdl.RawMsg

/-- How often `connect` tries with `attempts`: once more than asked for, and once if it is asked for no
attempt or for a negative number. -/
def tries (attempts : Int) : Nat := attempts.toNat + 1

private theorem go (attempts : Int) : ∀ (results : List Bool) (f : Nat), f ≤ attempts.toNat →
    (∀ c, connect attempts f f results = .connected c ↔
      f < c ∧ c ≤ tries attempts ∧ List.replicate (c - f - 1) false ++ [true] <+: results)
    ∧ (∀ c, connect attempts f f results = .rejected c ↔
      c = tries attempts ∧ List.replicate (c - f) false <+: results)
    ∧ (∀ c, connect attempts f f results = .pending c ↔
      c ≤ tries attempts ∧ c = f + results.length + 1 ∧ ∀ r ∈ results, r = false)
  | [], f, hf => by
    refine ⟨fun c => ?_, fun c => ?_, fun c => ?_⟩
    · simp [connect]
    · have : ∀ c, c = tries attempts → c - f ≠ 0 := fun c h => by simp only [tries] at h; omega
      simp [connect]
      intro h h'
      have := this c h
      omega
    · simp only [connect, Conn.pending.injEq, List.length_nil, List.not_mem_nil, false_implies, implies_true,
        and_true, tries]
      omega
  | true :: rest, f, hf => by
    refine ⟨fun c => ?_, fun c => ?_, fun c => ?_⟩
    · simp only [connect, Conn.connected.injEq, tries]
      constructor
      · rintro rfl
        exact ⟨by omega, by omega, by rw [show f + 1 - f - 1 = 0 by omega]; simp⟩
      · rintro ⟨h1, h2, h3⟩
        cases hk : c - f - 1 with
        | zero => omega
        | succ k => rw [hk, List.replicate_succ] at h3; simp at h3
    · simp only [connect, reduceCtorEq, false_iff, not_and, tries]
      rintro rfl h
      rw [show attempts.toNat + 1 - f = (attempts.toNat - f) + 1 by omega, List.replicate_succ] at h
      simp at h
    · simp [connect]
  | false :: rest, f, hf => by
    by_cases h : (f : Int) ≥ attempts
    · have e : f = attempts.toNat := by omega
      simp only [connect, if_pos h]
      refine ⟨fun c => ?_, fun c => ?_, fun c => ?_⟩
      · simp only [reduceCtorEq, false_iff, not_and, tries]
        intro h1 h2 h3
        rw [show c - f - 1 = 0 by omega] at h3
        simp at h3
      · simp only [Conn.rejected.injEq, tries]
        constructor
        · rintro rfl
          exact ⟨by omega, by rw [show f + 1 - f = 1 by omega]; simp⟩
        · rintro ⟨rfl, -⟩; omega
      · simp only [reduceCtorEq, false_iff, not_and, tries, List.length_cons]
        intro h1 h2
        omega
    · obtain ⟨i1, i2, i3⟩ := go attempts rest (f + 1) (by omega)
      simp only [connect, if_neg h]
      refine ⟨fun c => ?_, fun c => ?_, fun c => ?_⟩
      · rw [i1 c]
        constructor
        · rintro ⟨h1, h2, h3⟩
          refine ⟨by omega, h2, ?_⟩
          rw [show c - f - 1 = (c - (f + 1) - 1) + 1 by omega, List.replicate_succ, List.cons_append]
          simpa using h3
        · rintro ⟨h1, h2, h3⟩
          cases hk : c - f - 1 with
          | zero => rw [hk] at h3; simp at h3
          | succ k =>
            rw [hk, List.replicate_succ, List.cons_append] at h3
            refine ⟨by omega, h2, ?_⟩
            have e : c - (f + 1) - 1 = k := by omega
            simpa [e] using h3
      · rw [i2 c]
        have hx : c = tries attempts → c - f = (c - (f + 1)) + 1 := fun e => by simp only [tries] at e; omega
        constructor
        · rintro ⟨h1, h2⟩
          refine ⟨h1, ?_⟩
          rw [hx h1, List.replicate_succ]; simpa using h2
        · rintro ⟨h1, h2⟩
          refine ⟨h1, ?_⟩
          rw [hx h1, List.replicate_succ] at h2; simpa using h2
      · rw [i3 c]
        simp only [List.length_cons, List.mem_cons, forall_eq_or_imp, true_and]
        constructor
        · rintro ⟨h1, h2, h3⟩; exact ⟨h1, by omega, h3⟩
        · rintro ⟨h1, h2, h3⟩; exact ⟨h1, by omega, h3⟩

/-- C72: for every number of attempts, negative ones too, and whatever comes of each try: `connect`
succeeds with the `c`-th try exactly if this is the first that succeeds, and at most the `tries`-th; it
is rejected exactly if the first `tries` fail, and then after as many; it is still trying exactly if all
that have ended failed, and these are fewer. -/
theorem connect_exact (attempts : Int) (results : List Bool) (c : Nat) :
    (connect attempts 0 0 results = .connected c ↔
      0 < c ∧ c ≤ tries attempts ∧ List.replicate (c - 1) false ++ [true] <+: results)
    ∧ (connect attempts 0 0 results = .rejected c ↔
      c = tries attempts ∧ List.replicate c false <+: results)
    ∧ (connect attempts 0 0 results = .pending c ↔
      c ≤ tries attempts ∧ c = results.length + 1 ∧ ∀ r ∈ results, r = false) := by
  obtain ⟨h1, h2, h3⟩ := go attempts results 0 (by omega)
  refine ⟨?_, ?_, ?_⟩
  · rw [h1 c, Nat.sub_zero]
  · rw [h2 c, Nat.sub_zero]
  · rw [h3 c, Nat.zero_add]

/-- C72: the number of tries is never the one that was asked for. -/
theorem tries_violated (attempts : Int) : (tries attempts : Int) ≠ attempts := by
  simp only [tries]; omega

example : connect 2 0 0 [false, false, true, true] = .connected 3 ∧ connect 2 0 0 [false, false] = .pending 3
    ∧ connect 0 0 0 [false, true] = .rejected 1 ∧ connect (-5) 0 0 [false] = .rejected 1 := by decide

end Nbdl.RawMsg
