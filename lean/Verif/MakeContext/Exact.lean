import Verif.MakeContext.Props
/-!
# Which actors can be given different arguments (C101)
-/
namespace Nbdl.MakeContext
open Nbdl.Def

/-- C101: what a caller can give to an actor depends on its name only, and by different names different
arguments can be given, to producers and to consumers: for the actors at two positions, and any two
different arguments, there is a list of named arguments which gives the one to the first and the other
to the second, exactly if the actors have different names. -/
theorem different_exact {A : Type} (ps : List ProducerMeta) (cs : List ConsumerMeta) (i j : Nat) (n m : Ty)
    (hi : (actorNames ps cs)[i]? = some n) (hj : (actorNames ps cs)[j]? = some m) (a b : A) (hab : a ≠ b) :
    (∃ params args, makeContext ps cs params = some args
      ∧ args[i]? = some (some a) ∧ args[j]? = some (some b)) ↔ n ≠ m := by
  constructor
  · rintro ⟨params, args, h, h1, h2⟩ rfl
    have := same_type_violated ps cs i j (by rw [hi, hj]) params args h
    rw [h1, h2] at this
    exact hab (by simpa using this)
  · intro hne
    have e : (m == n) = false := by simpa using fun h : m = n => hne h.symm
    refine ⟨[(n, a), (m, b)], _, by simp only [makeContext, makeHelper]; rw [if_pos (by simpa using hne)], ?_, ?_⟩
    · rw [List.getElem?_map, hi]; simp
    · rw [List.getElem?_map, hj]; simp [List.lookup, e]

/-- C101: a list of named arguments makes a context exactly if no name is given twice; nothing else is
asked of the names. -/
theorem accepted_exact {A : Type} (ps : List ProducerMeta) (cs : List ConsumerMeta) (params : List (Ty × A)) :
    (∃ args, makeContext ps cs params = some args) ↔ (params.map (·.1)).Nodup := by
  simp only [makeContext, makeHelper]
  split <;> simp_all

/-- C101: the context is the same with and without a further argument, given under a new name, exactly if
no actor has this name. -/
theorem unknown_exact {A : Type} (ps : List ProducerMeta) (cs : List ConsumerMeta)
    (params : List (Ty × A)) (k : Ty) (a : A) (hp : (params.map (·.1)).Nodup)
    (hn : k ∉ params.map (·.1)) :
    makeContext ps cs ((k, a) :: params) = makeContext ps cs params ↔ k ∉ actorNames ps cs := by
  constructor
  · intro h hk
    have hl : params.lookup k = none := by
      cases e : params.lookup k with
      | none => rfl
      | some b =>
        obtain ⟨l1, l2, h1, -⟩ := List.lookup_eq_some_iff.mp e
        exact absurd (by simp [h1]) hn
    simp only [makeContext, makeHelper, List.map_cons, List.nodup_cons, hn, hp, not_false_eq_true, true_and,
      if_true, Option.some.injEq] at h
    have := List.map_inj_left.mp h k hk
    rw [hl] at this
    simp [List.lookup] at this
  · exact fun hk => unknown_name_violated ps cs params k a hk hn

example : (actorNames samplePs sampleCs)[0]? = some (.user 10) ∧
    (actorNames samplePs sampleCs)[2]? = some (.user 30) := by decide
example : .user 10 ∈ actorNames samplePs sampleCs ∧ .user 31 ∉ actorNames samplePs sampleCs := by decide

end Nbdl.MakeContext
