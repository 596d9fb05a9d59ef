import Verif.Keys.Spec
import Verif.Sql.Props
/-!
# C145: a key stands for the id it was made from
-/
namespace Nbdl.Keys
open Sql Sql.Spec Keys.Spec

variable {V T : Type}

/-! ## Keys by themselves -/

/-- Two keys of an entity are equal if and only if the integers they were made from differ by a multiple
of 2^32. -/
theorem equal_exact (m n : Int) : equal (make T m) (make T n) = true ↔ m % 2 ^ 32 = n % 2 ^ 32 := by
  unfold equal make
  simp only [beq_iff_eq]
  constructor
  · intro h
    have := congrArg BitVec.toNat h
    rw [BitVec.toNat_ofInt, BitVec.toNat_ofInt] at this
    simp at this
    omega
  · intro h
    apply BitVec.eq_of_toNat_eq
    rw [BitVec.toNat_ofInt, BitVec.toNat_ofInt]
    simp
    omega

/-- Keys made from ids that fit are equal if and only if the ids are. -/
theorem equal_partial (m n : Int) (hm : Fits m) (hn : Fits n) : equal (make T m) (make T n) = true ↔ m = n := by
  rw [equal_exact]
  unfold Fits at *
  omega

example : Fits 1 ∧ Fits 4294967295 := by unfold Fits; decide
example : equal (make Unit 7) (make Unit 8) = false := by decide

/-- VIOLATION: keys made from different ids are equal. -/
theorem equal_violated : ∀ n : Int, equal (make T n) (make T (n + 2 ^ 32)) = true ∧ n ≠ n + 2 ^ 32 := by
  intro n
  exact ⟨(equal_exact _ _).2 (by omega), by omega⟩

theorem named_make (n : Int) : named (make T n).value = n % 2 ^ 32 := by
  unfold named make
  rw [BitVec.toNat_ofInt]
  simp
  omega

/-- A key names the id it was made from if and only if the id fits. -/
theorem named_exact (n : Int) : named (make T n).value = n ↔ Fits n := by
  rw [named_make]
  unfold Fits
  omega

/-- After any assignments a key holds the key that was assigned last; numbers have no effect. -/
theorem assign_exact (k : Key T) (ss : List (Source T)) :
    assignAll k ss = ((keysOf ss).getLast?).getD k := by
  induction ss generalizing k with
  | nil => rfl
  | cons s ss ih =>
    have e : assignAll k (s :: ss) = assignAll (assign k s) ss := rfl
    rw [e, ih]
    cases s with
    | number n => rfl
    | key k' =>
      have e2 : keysOf (Source.key k' :: ss) = k' :: keysOf ss := rfl
      rw [e2, assign]
      cases h : keysOf ss with
      | nil => rfl
      | cons a as =>
        rw [List.getLast?_cons_cons]
        obtain ⟨z, hz⟩ : ∃ z, (a :: as).getLast? = some z := by
          rw [← Option.isSome_iff_exists, List.getLast?_isSome]; simp
        rw [hz]; rfl

/-- Partial: if only keys are assigned, the last one is held. -/
theorem assign_partial (k : Key T) (ss : List (Source T)) (h : ∀ n, Source.number n ∉ ss) :
    (assignAll k ss).value = lastAssigned k ss := by
  rw [assign_exact]
  have e : (keysOf ss).map Source.key = ss := by
    clear k
    induction ss with
    | nil => rfl
    | cons s ss ih =>
      cases s with
      | number n => exact absurd (by simp) (h n)
      | key k' =>
        have := ih fun n hn => h n (by simp [hn])
        have e2 : keysOf (Source.key k' :: ss) = k' :: keysOf ss := rfl
        rw [e2, List.map_cons, this]
  have e2 : lastAssigned k ss = ((keysOf ss).getLast?.getD k).value := by
    unfold lastAssigned
    have := congrArg List.getLast? e
    rw [List.getLast?_map] at this
    rw [← this]
    cases (keysOf ss).getLast? <;> rfl
  rw [e2]

example : (assignAll (make Unit 1) [.key (make Unit 2), .key (make Unit 3)]) = make Unit 3 := by decide

/-- VIOLATION: assigning a number to a key compiles and has no effect, whatever the key and the number. -/
theorem assign_violated (k : Key T) (n : Int) (h : make T n ≠ k) :
    (assignAll k [.number n]).value ≠ lastAssigned k [.number n] := by
  intro e
  apply h
  unfold make
  have : k.value = BitVec.ofInt 32 n := e
  rw [← this]

example : make Unit 2 ≠ make Unit 1 := by decide

/-! ## Keys in a database -/

def mapCols {K K' : Type} (f : K → K') (l : List (Text × Col V K)) : List (Text × Col V K') :=
  l.map fun c => (c.1, match c.2 with | .value v => .value v | .key k => .key (f k))

def mapLog {K K' : Type} (f : K → K') (log : Log V K) : Log V K' :=
  log.map fun x => (⟨x.1.table, mapCols f x.1.cols⟩, f x.2)

theorem mapCols_plain {K K' : Type} (f : K → K') (ms : List (Node V)) : mapCols f (plain ms) = plain ms := by
  unfold mapCols plain
  induction ms with
  | nil => rfl
  | cons m ms ih =>
    cases m with
    | value n v => simp only [List.filterMap_cons, List.map_cons, ih]
    | ent n t l => simpa only [List.filterMap_cons] using ih
    | rows n l => simpa only [List.filterMap_cons] using ih

mutual
theorem stored_map {K K' : Type} (f : K → K') (log : Log V K) (keys : List (Text × Col V K)) (id : K) :
    ∀ e : Node V, Stored log keys id e → Stored (mapLog f log) (mapCols f keys) (f id) e
  | .ent _ table ms, h => by
    obtain ⟨ids, h1, h2, h3⟩ := h
    refine ⟨mapCols f ids, ?_, storedChildren_map f log ids ms h2, storedRows_map f log table id ms h3⟩
    have := List.mem_map_of_mem (f := fun x : Row V K × K => ((⟨x.1.table, mapCols f x.1.cols⟩ : Row V K'), f x.2)) h1
    simp only [mapCols, List.map_append] at this
    have e := mapCols_plain f ms
    simp only [mapCols] at e
    rw [e] at this
    exact this
  | .value .., h => h.elim
  | .rows .., h => h.elim
theorem storedChildren_map {K K' : Type} (f : K → K') (log : Log V K) (ids : List (Text × Col V K)) :
    ∀ ms : List (Node V), StoredChildren log ids ms → StoredChildren (mapLog f log) (mapCols f ids) ms
  | [], h => by simp only [StoredChildren] at h ⊢; rw [h]; rfl
  | .ent name t ms' :: ms, h => by
    obtain ⟨k, rest, rfl, h2, h3⟩ := h
    exact ⟨f k, mapCols f rest, rfl, stored_map f log [] k _ h2, storedChildren_map f log rest ms h3⟩
  | .value .. :: ms, h => storedChildren_map f log ids ms h
  | .rows .. :: ms, h => storedChildren_map f log ids ms h
theorem storedRows_map {K K' : Type} (f : K → K') (log : Log V K) (table : Text) (id : K) :
    ∀ ms : List (Node V), StoredRows log table id ms → StoredRows (mapLog f log) table (f id) ms
  | [], _ => trivial
  | .rows _ es :: ms, h => ⟨storedAll_map f log table id es h.1, storedRows_map f log table id ms h.2⟩
  | .value .. :: ms, h => storedRows_map f log table id ms h
  | .ent .. :: ms, h => storedRows_map f log table id ms h
theorem storedAll_map {K K' : Type} (f : K → K') (log : Log V K) (table : Text) (id : K) :
    ∀ es : List (Node V), StoredAll log table id es → StoredAll (mapLog f log) table (f id) es
  | [], _ => trivial
  | e :: es, h => by
    obtain ⟨⟨k, h1⟩, h2⟩ := h
    exact ⟨⟨f k, stored_map f log _ k e h1⟩, storedAll_map f log table id es h2⟩
end

/-- The ids of a log are those given by the database. -/
def Given (ids : Nat → Int) (log : Log V (BitVec 32)) : Prop :=
  ∀ (i : Nat) (r : Row V (BitVec 32) × BitVec 32), log[i]? = some r → r.2 = (make Unit (ids i)).value

theorem given_snoc (ids : Nat → Int) (log : Log V (BitVec 32)) (row : Row V (BitVec 32)) (h : Given ids log) :
    Given ids (log ++ [(row, (make Unit (ids log.length)).value)]) := by
  intro i r hr
  rw [List.getElem?_append] at hr
  split at hr
  · exact h i r hr
  · have hi : i - log.length = 0 := by
      cases hd : i - log.length with
      | zero => rfl
      | succ n => rw [hd] at hr; simp at hr
    rw [hi] at hr
    simp only [List.getElem?_cons_zero, Option.some.injEq] at hr
    subst hr
    have : i = log.length := by omega
    rw [this]

mutual
theorem insert_given (ids : Nat → Int) (keys : List (Text × Col V (BitVec 32))) (log : Log V (BitVec 32))
    (h : Given ids log) : ∀ e : Node V,
    Given ids (insert (fun log _ => (make Unit (ids log.length)).value) (fun k => k) keys log e).1
  | .ent _ table ms => by
    simp only [Sql.insert]
    exact multi_given ids table _ _ (given_snoc ids _ _ (children_given ids log h ms)) ms
  | .value .. => h
  | .rows .. => h
theorem children_given (ids : Nat → Int) (log : Log V (BitVec 32)) (h : Given ids log) : ∀ ms : List (Node V),
    Given ids (insertChildren (fun log _ => (make Unit (ids log.length)).value) (fun k => k) log ms).1
  | [] => h
  | .ent name table ms' :: ms => by
    simp only [insertChildren]
    exact children_given ids _ (insert_given ids [] log h (.ent name table ms')) ms
  | .value .. :: ms => children_given ids log h ms
  | .rows .. :: ms => children_given ids log h ms
theorem multi_given (ids : Nat → Int) (table : Text) (id : BitVec 32) (log : Log V (BitVec 32)) (h : Given ids log) :
    ∀ ms : List (Node V),
    Given ids (insertMulti (fun log _ => (make Unit (ids log.length)).value) (fun k => k) table id log ms)
  | [] => h
  | .rows _ es :: ms => by
    simp only [insertMulti]
    exact multi_given ids table id _ (rows_given ids table id log h es) ms
  | .value .. :: ms => multi_given ids table id log h ms
  | .ent .. :: ms => multi_given ids table id log h ms
theorem rows_given (ids : Nat → Int) (table : Text) (id : BitVec 32) (log : Log V (BitVec 32)) (h : Given ids log) :
    ∀ es : List (Node V),
    Given ids (insertRows (fun log _ => (make Unit (ids log.length)).value) (fun k => k) table id log es)
  | [] => h
  | e :: es => by
    simp only [insertRows]
    exact rows_given ids table id _ (insert_given ids _ log h e) es
end

theorem rowIn_map (r : Row V (BitVec 32)) : rowIn r = ⟨r.table, mapCols named r.cols⟩ := by
  unfold rowIn mapCols
  congr 1
  apply List.map_congr_left
  rintro ⟨n, c⟩ _
  cases c <;> rfl

theorem database_map (ids : Nat → Int) (e : Node V) (hf : ∀ i, i < size e → Fits (ids i))
    (hl : (insertRun ids e).1.length = size e) : database ids e = mapLog named (insertRun ids e).1 := by
  have hg : Given ids (insertRun ids e).1 := insert_given ids [] [] (by intro i r h; simp at h) e
  apply List.ext_getElem?
  intro i
  unfold database mapLog
  rw [List.getElem?_map, List.getElem?_map, List.getElem?_zipIdx]
  cases hi : (insertRun ids e).1[i]? with
  | none => rfl
  | some r =>
    simp only [Option.map_some, Nat.zero_add, Option.some.injEq, Prod.mk.injEq]
    refine ⟨rowIn_map _, ?_⟩
    have hlt : i < size e := by
      rw [← hl]
      exact (List.getElem?_eq_some_iff.1 hi).1
    rw [hg i r hi, (named_exact (ids i)).2 (hf i hlt)]

/-- C145 in a database, the part that holds: if the ids which the database gives fit, then after any entity has
been inserted into an empty database there is a row for each of its entities, and rows refer to each other by the
ids the database has given. -/
theorem linked_partial (ids : Nat → Int) (e : Node V) (hp : Proper e) (hf : ∀ i, i < size e → Fits (ids i)) :
    ∃ i, i < size e ∧ (database ids e).length = size e ∧ Stored (database ids e) [] (ids i) e := by
  obtain ⟨new, id, h1, h2, h3, -⟩ := insert_entity_partial (fun log _ => (make Unit (ids log.length)).value) [] [] e hp
    (by simp [KeysIn]) (by simp [RefsOk])
  simp only [List.nil_append] at h1 h3
  have hr : (insertRun ids e).1 = new := by unfold insertRun; rw [h1]
  have hd := database_map ids e hf (by rw [hr, h2])
  have hg : Given ids new := by
    have := insert_given ids [] [] (by intro i r h; simp at h) e
    rw [h1] at this
    exact this
  have hmem : ∃ row, (row, id) ∈ new := by
    cases e with
    | ent n t ms => obtain ⟨cs, hm, -⟩ := h3; exact ⟨_, hm⟩
    | value n v => exact h3.elim
    | rows n es => exact h3.elim
  obtain ⟨row, hm⟩ := hmem
  obtain ⟨i, hi⟩ := List.mem_iff_getElem?.1 hm
  have hlt : i < size e := by
    rw [← h2]
    exact (List.getElem?_eq_some_iff.1 hi).1
  refine ⟨i, hlt, by rw [hd, hr, mapLog, List.length_map, h2], ?_⟩
  rw [hd, hr]
  have e1 := stored_map named new [] id e h3
  have e2 : named id = ids i := by
    have := hg i _ hi
    simp only at this
    rw [this, (named_exact (ids i)).2 (hf i hlt)]
  rw [e2] at e1
  exact e1

/-- Ids from 1 on, as databases give them; the entity of the tests. -/
example : ∀ i, i < size exBoo → Fits ((i : Int) + 1) := by
  intro i h
  simp [exBoo, exFoo, size, sizeMembers, sizeAll] at h
  unfold Fits
  omega

/-- VIOLATION: a parent whose id does not fit.  Its elements do not refer to it, whatever the ids. -/
theorem linked_violated (ids : Nat → Int) (h : ¬ Fits (ids 0)) :
    (database ids exBoo).map (fun x => (x.1.cols.head?, x.2))
      = [(none, ids 0),
         (some ("boo_id".toList, .key (ids 0 % 2 ^ 32)), ids 1),
         (some ("boo_id".toList, .key (ids 0 % 2 ^ 32)), ids 2),
         (some ("boo_id".toList, .key (ids 0 % 2 ^ 32)), ids 3)]
    ∧ ids 0 % 2 ^ 32 ≠ ids 0 := by
  refine ⟨?_, fun e => h ((named_exact (T := Unit) (ids 0)).1 (by rw [named_make]; exact e))⟩
  have e : (insertRun ids exBoo).1 = [(⟨"boo".toList, []⟩, (make Unit (ids 0)).value),
      (⟨"foo".toList, [("boo_id".toList, .key (make Unit (ids 0)).value), ("foo_value".toList, .value 101)]⟩,
        (make Unit (ids 1)).value),
      (⟨"foo".toList, [("boo_id".toList, .key (make Unit (ids 0)).value), ("foo_value".toList, .value 221)]⟩,
        (make Unit (ids 2)).value),
      (⟨"foo".toList, [("boo_id".toList, .key (make Unit (ids 0)).value), ("foo_value".toList, .value 123)]⟩,
        (make Unit (ids 3)).value)] := by
    rfl
  unfold database
  rw [e, ← named_make (T := Unit)]
  rfl

/-- Such a parent, the elements of which become those of the row with id 5. -/
example : ¬ Fits (4294967301 : Int) ∧ (4294967301 : Int) % 2 ^ 32 = 5 := by unfold Fits; decide

end Nbdl.Keys
