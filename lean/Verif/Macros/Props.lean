import Verif.Macros.Lemmas

/-!
# Properties of the declaring macros (C107, C108)
-/

namespace Nbdl.Macros

/-! ## C107: entities -/

/-- An entity declared with 1 to 62 members has exactly these, in order, each under its own name.
Missing: more members (`entity_many_violated`) and names with commas outside of parentheses (`entity_comma_violated`). -/
theorem entity_declared_partial (record : List Tok) (names : List (List Byte)) (hr : Plain record)
    (h1 : 1 ≤ names.length) (h2 : names.length ≤ 62) :
    entity (written record names) = some
      ⟨record, commas (names.map (memberText record)), (names.map (nameText record)).flatten⟩ := by
  have e : restArgs (ids names) = ids names := by
    cases names with
    | nil => simp at h1
    | cons x xs => rfl
  have hn : narg (record :: ids names) = some [.num (names.length + 1)] := by
    rw [narg_small (by simp [ids]; omega)]; simp [ids]
  unfold entity
  rw [split_written names record hr]
  simp only [e, vfunc, hn, members_expand record names 64 h1 h2 (by omega),
    memberNames_expand record names 64 h1 h2 (by omega)]

example : entity (written [.id [1#8], .colons, .id [2#8]] [[3#8], [4#8]]) = some
    ⟨[.id [1#8], .colons, .id [2#8]],
      [.member, .lpar, .amp, .id [1#8], .colons, .id [2#8], .colons, .id [3#8], .rpar, .comma,
       .member, .lpar, .amp, .id [1#8], .colons, .id [2#8], .colons, .id [4#8], .rpar],
      [.memberName, .lpar, .id [1#8], .colons, .id [2#8], .comma, .id [3#8], .rpar, .semi,
       .memberName, .lpar, .id [1#8], .colons, .id [2#8], .comma, .id [4#8], .rpar, .semi]⟩ :=
  entity_declared_partial _ _ (by simp [Plain, closes]) (by decide) (by decide)

/-- A record that is written with commas in parentheses, as in `decltype(f(a, b))`, is one argument. -/
example : Plain [.id [1#8], .lpar, .id [2#8], .lpar, .id [3#8], .comma, .id [4#8], .rpar, .comma, .id [5#8], .rpar] := by
  simp [Plain, closes]

/-- No entity with more than 62 members can be declared. -/
theorem entity_many_violated (record : List Tok) (names : List (List Byte)) (hr : Plain record)
    (h : 62 < names.length) : entity (written record names) = none := by
  have e : restArgs (ids names) = ids names := by
    cases names with
    | nil => simp at h
    | cons x xs => rfl
  have hn : narg (record :: ids names) = some [.id (names[62])] := by
    rw [narg_large (by simp [ids]; omega)]; simp [ids, h]
  unfold entity
  rw [split_written names record hr]
  simp only [e, vfunc, hn]

example : Plain [.id [1#8]] ∧ 62 < (List.replicate 63 [1#8]).length := by simp [Plain, closes]

/-- Without members there is a member without a name, which no C++ compiler accepts
(`NBDL_EMPTY` is for that). -/
theorem entity_empty (record : List Tok) (hr : Plain record) :
    (entity (written record [])).map Entity.members =
      some ([.member, .lpar, .amp] ++ record ++ [.colons, .rpar]) := by
  have hn : narg [record, []] = some [.num 2] := narg_small (by simp)
  unfold entity
  rw [split_written [] record hr]
  simp only [ids, List.map_nil, restArgs, vfunc, hn]
  rw [expand_some members_two (by simp), expand_some memberNames_two (by simp)]
  simp

/-- A comma in the name of the record (of a template with two arguments) makes a member of its second
half. -/
theorem entity_comma_violated : ∃ (record : List Tok) (x : List Byte),
    (entity (written record [x])).map Entity.members ≠ some (memberText record x) ∧
    (entity (written record [x])).map Entity.record = some (record.take 3) :=
  ⟨[.id [1#8], .lt, .id [2#8], .comma, .id [3#8], .gt], [4#8], by decide +kernel⟩

/-- The members of an entity get the numbers 0, 1, … in the order in which they are declared. -/
theorem ids_in_order_partial (record : List Tok) (names : List (List Byte)) (hr : Plain record)
    (h1 : 1 ≤ names.length) (h2 : names.length ≤ 61) :
    ∃ k : Nat → Nat, (∀ i, i < names.length → names.length - k i = i) ∧
      entityIds (written record names) =
        some (names.mapIdx fun i x => idText record x names.length (k i)).flatten := by
  refine ⟨fun i => names.length - i, fun i hi => by show names.length - (names.length - i) = i; omega, ?_⟩
  have e : restArgs (ids names) = ids names := by
    cases names with
    | nil => simp at h1
    | cons x xs => rfl
  have hn : narg (ids names) = some [.num names.length] := by
    rw [narg_small (by simp [ids]; omega)]; simp [ids]
  have hn2 : narg (record :: [.num names.length] :: ids names) = some [.num (names.length + 2)] := by
    rw [narg_small (by simp [ids]; omega)]; simp [ids]
  unfold entityIds
  rw [split_written names record hr]
  simp only [e, hn, vfunc, hn2]
  exact memberIds_expand record names.length names 64 h1 h2 (by omega)

example : entityIds (written [.id [1#8]] [[2#8], [3#8]]) = some
    (idText [.id [1#8]] [2#8] 2 2 ++ idText [.id [1#8]] [3#8] 2 1) := by decide +kernel

/-! ## C108: meta structs -/

/-- A meta struct declared with 1 to 63 keys has exactly these keys: the i-th one is the key with the
index i, and they are in `spec` in the same order. Missing: more keys (`metastruct_many_violated`). -/
theorem keys_declared_partial (name : List Tok) (names : List (List Byte)) (hr : Plain name)
    (h1 : 1 ≤ names.length) (h2 : names.length ≤ 63) :
    ∃ k : Nat → Nat, (∀ i, i < names.length → names.length - k i = i) ∧
      metaText (written name names) = some
        ⟨name, [.num names.length], (names.mapIdx fun i x => keyText x (k i)).flatten,
          commas (names.map fun x => [.id x])⟩ := by
  refine ⟨fun i => names.length - i, fun i hi => by show names.length - (names.length - i) = i; omega, ?_⟩
  have e : restArgs (ids names) = ids names := by
    cases names with
    | nil => simp at h1
    | cons x xs => rfl
  have hn : narg (ids names) = some [.num names.length] := by
    rw [narg_small (by simp [ids]; omega)]; simp [ids]
  unfold metaText
  rw [split_written names name hr]
  simp only [e, hn, vfunc, keys_expand names 64 h1 h2 (by omega),
    specNames_expand names 64 h1 h2 (by omega)]
  rfl

example : metaText (written [.id [1#8]] [[2#8], [3#8]]) = some
    ⟨[.id [1#8]], [.num 2], keyText [2#8] 2 ++ keyText [3#8] 1,
      [.id [2#8], .comma, .id [3#8]]⟩ := by decide +kernel

/-- No meta struct with more than 63 keys can be declared. -/
theorem metastruct_many_violated (name : List Tok) (names : List (List Byte)) (hr : Plain name)
    (h : 63 < names.length) : metaText (written name names) = none := by
  have e : restArgs (ids names) = ids names := by
    cases names with
    | nil => simp at h
    | cons x xs => rfl
  have hn : narg (ids names) = some [.id (names[63])] := by
    rw [narg_large (by simp [ids]; omega)]; simp [ids, h]
  unfold metaText
  rw [split_written names name hr]
  simp only [e, hn, vfunc]

example : Plain [.id [1#8]] ∧ 63 < (List.replicate 64 [1#8]).length := by simp [Plain, closes]

/-- A meta struct made from pairs of keys and values compiles if and only if each of its keys is used
once; the order of the pairs does not matter, and each key gives back the value it was paired with. -/
theorem with_map_exact {V : Type} (n : Nat) (pairs : List (Nat × V)) :
    (Complete n pairs → ∃ values, makeWithMap (List.range n) pairs = some values ∧
      values.length = n ∧ ∀ key v, (key, v) ∈ pairs ↔ get values key = some v) ∧
    (¬ Complete n pairs → makeWithMap (List.range n) pairs = none) := by
  constructor
  · intro h
    have hnd : (pairs.map Prod.fst).Nodup := (List.Perm.nodup_iff h).2 List.nodup_range
    have hlen : pairs.length = n := by have := h.length_eq; simpa using this
    have hall : ∀ a ∈ List.range n, ∃ b, atKey pairs a = some b := by
      intro a ha
      have hm : a ∈ pairs.map Prod.fst := h.mem_iff.2 ha
      obtain ⟨⟨k, v⟩, hp, rfl⟩ := List.mem_map.1 hm
      exact ⟨v, atKey_nodup hnd hp⟩
    obtain ⟨r, hr⟩ := mapM_exists hall
    have ha := mapM_all hr
    have hl : r.length = n := by simpa using ha.1
    refine ⟨r, by simp [makeWithMap, hlen, hr, make], hl, fun key v => ?_⟩
    constructor
    · intro hm
      have hk : key < n := by
        have : key ∈ List.range n := h.mem_iff.1 (List.mem_map_of_mem (f := Prod.fst) hm)
        simpa using this
      have := (ha.2 key key (by simp [hk])).1
      rw [get, ← this]
      exact atKey_nodup hnd hm
    · intro hg
      have hk : key < n := by
        rw [get] at hg
        have := (List.getElem?_eq_some_iff.1 hg).1
        omega
      have := (ha.2 key key (by simp [hk])).1
      rw [get, ← this] at hg
      exact atKey_mem hg
  · intro h
    unfold makeWithMap
    split
    · rename_i hl
      cases hm : (List.range n).mapM (atKey pairs) with
      | none => rfl
      | some r =>
        exfalso
        apply h
        have ha := mapM_all hm
        refine perm_of_subset _ _ List.nodup_range (fun a haa => ?_) (by simpa using hl)
        have hs := (ha.2 a a (by simp at haa; simp [haa])).2
        obtain ⟨v, hv⟩ := Option.isSome_iff_exists.1 hs
        exact List.mem_map_of_mem (f := Prod.fst) (atKey_mem hv)
    · rfl

example : Complete 3 [(2, 'c'), (0, 'a'), (1, 'b')] := by
  unfold Complete; decide
example : makeWithMap (List.range 3) [(2, 'c'), (0, 'a'), (1, 'b')] = some ['a', 'b', 'c'] := by
  decide
example : ¬ Complete 2 [(0, 'a'), (0, 'a')] := by unfold Complete; decide

/-- A meta struct made from values in the order of the keys gives each back, but the number of values
is not checked: with too few the missing keys fail only where they are used. -/
theorem make_unchecked_violated : ∃ values : List Char, values.length ≠ 2 ∧
    get (make values) 0 = some 'a' ∧ get (make values) 1 = none := ⟨['a'], by decide⟩

end Nbdl.Macros
