import Verif.MakeContext.Model
/-!
# Properties of named arguments (C101)
-/
namespace Nbdl.MakeContext
open Nbdl.Def

private theorem lookup_iff {A : Type} : ∀ (l : List (Ty × A)) (k : Ty) (a : A), (l.map (·.1)).Nodup →
    (l.lookup k = some a ↔ (k, a) ∈ l)
  | [], k, a, _ => by simp
  | (k', a') :: l, k, a, h => by
    rw [List.map_cons, List.nodup_cons] at h
    have ih := lookup_iff l k a h.2
    rw [List.lookup_cons]
    by_cases e : k = k'
    · subst e
      simp only [beq_self_eq_true, Option.some.injEq, List.mem_cons, Prod.mk.injEq, true_and]
      constructor
      · exact fun h => .inl h.symm
      · rintro (h' | h')
        · exact h'.symm
        · exact absurd (List.mem_map.mpr ⟨_, h', rfl⟩) h.1
    · have : (k == k') = false := by simpa using e
      simp [this, e, ih]

/-- C101: an actor is given an argument exactly if the caller named it; the producers come first, then
the consumers, in the order of the definition. -/
theorem own_argument {A : Type} (ps : List ProducerMeta) (cs : List ConsumerMeta) (params : List (Ty × A))
    (args : List (Option A)) (h : makeContext ps cs params = some args) :
    args.length = ps.length + cs.length ∧
    (∀ (i : Nat) (p : ProducerMeta) (a : A), ps[i]? = some p → (args[i]? = some (some a) ↔ (p.name, a) ∈ params)) ∧
    (∀ (i : Nat) (c : ConsumerMeta) (a : A), cs[i]? = some c → (args[ps.length + i]? = some (some a) ↔ (c.name, a) ∈ params)) := by
  simp only [makeContext, makeHelper] at h
  split at h
  · rename_i hn
    cases h
    refine ⟨by simp [actorNames], ?_, ?_⟩
    · intro i p a hp
      have hi : i < ps.length := (List.getElem?_eq_some_iff.mp hp).1
      rw [List.getElem?_map, actorNames, List.getElem?_append_left (by simpa using hi), List.getElem?_map,
        hp]
      simp [lookup_iff params p.name a hn]
    · intro i c a hc
      rw [List.getElem?_map, actorNames, List.getElem?_append_right (by simp)]
      simp [hc, lookup_iff params c.name a hn]
  · cases h

/-- C101: the order of the named arguments does not matter. -/
theorem any_order {A : Type} (ps : List ProducerMeta) (cs : List ConsumerMeta)
    {params params' : List (Ty × A)} (h : params.Perm params') :
    makeContext ps cs params = makeContext ps cs params' := by
  have hk : (params.map (·.1)).Perm (params'.map (·.1)) := h.map _
  simp only [makeContext, makeHelper, hk.nodup_iff]
  split
  · rename_i hn
    congr 1
    apply List.map_congr_left
    intro n _
    have hn' := hk.nodup_iff.mpr hn
    cases e : params'.lookup n with
    | some a => exact (lookup_iff params n a hn').mpr (h.mem_iff.mpr ((lookup_iff params' n a hn).mp e))
    | none =>
      cases e' : params.lookup n with
      | none => rfl
      | some a =>
        rw [(lookup_iff params' n a hn).mpr (h.mem_iff.mp ((lookup_iff params n a hn').mp e'))] at e
        cases e
  · rfl

/-- C101 is violated: an argument with a name which no actor has is dropped without a word. -/
theorem unknown_name_violated {A : Type} (ps : List ProducerMeta) (cs : List ConsumerMeta)
    (params : List (Ty × A)) (k : Ty) (a : A) (hk : k ∉ actorNames ps cs)
    (hn : k ∉ params.map (·.1)) :
    makeContext ps cs ((k, a) :: params) = makeContext ps cs params := by
  simp only [makeContext, makeHelper, List.map_cons, List.nodup_cons, hn, not_false_eq_true, true_and]
  split
  · congr 1
    apply List.map_congr_left
    intro n hm
    have : n ≠ k := fun e => hk (e ▸ hm)
    have hb : (n == k) = false := by simpa using this
    simp [List.lookup_cons, hb]
  · rfl

/-- C101 is violated: two actors of one type without names have the same name, and cannot be given
different arguments. -/
theorem same_type_violated {A : Type} (ps : List ProducerMeta) (cs : List ConsumerMeta) (i j : Nat)
    (h : (actorNames ps cs)[i]? = (actorNames ps cs)[j]?) (params : List (Ty × A))
    (args : List (Option A)) (hm : makeContext ps cs params = some args) : args[i]? = args[j]? := by
  simp only [makeContext, makeHelper] at hm
  split at hm
  · cases hm; simp [h]
  · cases hm

/-- Two producers and a consumer. -/
def samplePs : List ProducerMeta := [⟨.user 1, .user 10, []⟩, ⟨.user 2, .user 2, []⟩]
def sampleCs : List ConsumerMeta := [⟨.user 3, .user 30⟩]
example : makeContext samplePs sampleCs [(.user 30, "c"), (.user 10, "p")] =
    some [some "p", none, some "c"] := by decide
/-- The name is misspelt. -/
example : .user 31 ∉ actorNames samplePs sampleCs ∧
    makeContext samplePs sampleCs [(.user 31, "c"), (.user 10, "p")] = some [some "p", none, none] := by
  decide
/-- Two producers of type 2. -/
example : (actorNames [⟨.user 2, .user 2, []⟩, ⟨.user 2, .user 2, []⟩] [])[0]? =
    (actorNames [⟨.user 2, .user 2, []⟩, ⟨.user 2, .user 2, []⟩] [])[1]? := rfl
/-- … as definitions give them. -/
example : (producerMeta (.map .producer [.leaf .type (.user 2)])).map (·.name) = some (.user 2) := by
  rfl

end Nbdl.MakeContext
