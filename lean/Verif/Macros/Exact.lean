import Verif.Macros.Props
/-!
# How many members and keys can be declared (C107, C108)
-/
namespace Nbdl.Macros

private theorem rest_ids {names : List (List Byte)} (h : 1 ≤ names.length) : restArgs (ids names) = ids names := by
  cases names with
  | nil => simp at h
  | cons x xs => rfl

/-- C107: an entity declared with one member or more has these members, in order, each under its own
name, exactly if there are at most 62. -/
theorem entity_exact (record : List Tok) (names : List (List Byte)) (hr : Plain record)
    (h1 : 1 ≤ names.length) :
    entity (written record names) = some
      ⟨record, commas (names.map (memberText record)), (names.map (nameText record)).flatten⟩
    ↔ names.length ≤ 62 := by
  constructor
  · intro h
    by_cases h2 : names.length ≤ 62
    · exact h2
    · rw [entity_many_violated record names hr (by omega)] at h
      cases h
  · exact fun h2 => entity_declared_partial record names hr h1 h2

/-- C107: 62 members can be declared, and cannot be numbered. -/
theorem ids_many_violated (record : List Tok) (names : List (List Byte)) (hr : Plain record)
    (h : 61 < names.length) : entityIds (written record names) = none := by
  have e := rest_ids (names := names) (by omega)
  have hn : ∃ size, narg (ids names) = some size := by
    by_cases hs : names.length ≤ 63
    · exact ⟨_, narg_small (by simpa [ids] using hs)⟩
    · rw [narg_large (by simp [ids]; omega)]
      exact ⟨[.id (names[63])], by simp [ids]⟩
  obtain ⟨size, hn⟩ := hn
  have hn2 : narg (record :: size :: ids names) = some [.id (names[61])] := by
    rw [narg_large (by simp [ids]; omega)]; simp [ids, h]
  unfold entityIds
  rw [split_written names record hr]
  simp only [e, hn, vfunc, hn2]

/-- C107: the members of an entity are numbered 0, 1, … in the order of their declaration exactly if
there are at most 61. -/
theorem ids_exact (record : List Tok) (names : List (List Byte)) (hr : Plain record)
    (h1 : 1 ≤ names.length) :
    (∃ k : Nat → Nat, (∀ i, i < names.length → names.length - k i = i) ∧
      entityIds (written record names) =
        some (names.mapIdx fun i x => idText record x names.length (k i)).flatten)
    ↔ names.length ≤ 61 := by
  constructor
  · rintro ⟨k, -, h⟩
    by_cases h2 : names.length ≤ 61
    · exact h2
    · rw [ids_many_violated record names hr (by omega)] at h
      cases h
  · exact fun h2 => ids_in_order_partial record names hr h1 h2

/-- C108: a meta struct declared with one key or more has these keys, in order, exactly if there are at
most 63. -/
theorem keys_exact (name : List Tok) (names : List (List Byte)) (hr : Plain name)
    (h1 : 1 ≤ names.length) :
    (∃ k : Nat → Nat, (∀ i, i < names.length → names.length - k i = i) ∧
      metaText (written name names) = some
        ⟨name, [.num names.length], (names.mapIdx fun i x => keyText x (k i)).flatten,
          commas (names.map fun x => [.id x])⟩)
    ↔ names.length ≤ 63 := by
  constructor
  · rintro ⟨k, -, h⟩
    by_cases h2 : names.length ≤ 63
    · exact h2
    · rw [metastruct_many_violated name names hr (by omega)] at h
      cases h
  · exact fun h2 => keys_declared_partial name names hr h1 h2

/-- Each of the three can be declared with one member and not with 64. -/
example : Plain [.id [1#8]] ∧ 1 ≤ [[2#8]].length ∧ [[2#8]].length ≤ 61 ∧
    ¬ (List.replicate 64 [1#8]).length ≤ 63 := by simp [Plain, closes]

end Nbdl.Macros
