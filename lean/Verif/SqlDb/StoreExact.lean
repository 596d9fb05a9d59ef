import Verif.SqlDb.Props
/-!
# Exactly which entities can be stored and read back (C128)
-/
namespace Nbdl.SqlDb.Spec
open Sql Sql.Spec SqlDb
variable {V : Type}

mutual
/-- Names are what C++ identifiers can be, members of one struct have different names, and no column has the name
of the primary key of its table.  `keys` are the names of the foreign keys. -/
def WellNamed (keys : List Text) : Node V → Prop
  | .ent _ t ms => Clean t ∧ (∀ n ∈ ms.map nodeName, Clean n ∧ '.' ∉ n) ∧ (ms.map nodeName).Nodup ∧
      t ++ "_id".toList ∉ keys ++ childKeys ms ++ plainNames ms ∧ WellNamedMembers t ms
  | _ => False
/-- See `WellNamed`. -/
def WellNamedMembers (t : Text) : List (Node V) → Prop
  | [] => True
  | .value .. :: ms => WellNamedMembers t ms
  | .ent n t' ms' :: ms => WellNamed [] (.ent n t' ms') ∧ WellNamedMembers t ms
  | .rows _ es :: ms => WellNamedElems t es ∧ WellNamedMembers t ms
/-- See `WellNamed`. -/
def WellNamedElems (t : Text) : List (Node V) → Prop
  | [] => True
  | e :: es => WellNamed [t ++ "_id".toList] e ∧ WellNamedElems t es
end

mutual
/-- Every table of the entity has a column, and no two columns with the same name. -/
def Tables (keys : List Text) : Node V → Prop
  | .ent _ t ms => keys ++ childKeys ms ++ plainNames ms ≠ [] ∧ (keys ++ childKeys ms ++ plainNames ms).Nodup ∧
      TablesMembers t ms
  | _ => True
/-- See `Tables`. -/
def TablesMembers (t : Text) : List (Node V) → Prop
  | [] => True
  | .value .. :: ms => TablesMembers t ms
  | .ent n t' ms' :: ms => Tables [] (.ent n t' ms') ∧ TablesMembers t ms
  | .rows _ es :: ms => TablesElems t es ∧ TablesMembers t ms
/-- See `Tables`. -/
def TablesElems (t : Text) : List (Node V) → Prop
  | [] => True
  | e :: es => Tables [t ++ "_id".toList] e ∧ TablesElems t es
end

end Nbdl.SqlDb.Spec

namespace Nbdl.SqlDb
open Sql Sql.Spec Spec
variable {V K : Type} [DecidableEq V] [DecidableEq K]

mutual
theorem good_of (keys : List Text) (e : Node V) (h : WellNamed keys e) (g : Tables keys e) : Good keys e := by
  match e, h, g with
  | .ent n t ms, h, g =>
    obtain ⟨h1, h2, h3, h4, h5⟩ := h
    obtain ⟨g1, g2, g3⟩ := g
    exact ⟨h1, h2, h3, g1, g2, h4, goodMembers_of t ms h5 g3⟩
theorem goodMembers_of (t : Text) (ms : List (Node V)) (h : WellNamedMembers t ms) (g : TablesMembers t ms) :
    GoodMembers t ms := by
  match ms, h, g with
  | [], _, _ => trivial
  | .value .. :: ms, h, g => exact goodMembers_of t ms h g
  | .ent n t' ms' :: ms, h, g => exact ⟨good_of [] (.ent n t' ms') h.1 g.1, goodMembers_of t ms h.2 g.2⟩
  | .rows n es :: ms, h, g => exact ⟨goodAll_of t es h.1 g.1, goodMembers_of t ms h.2 g.2⟩
theorem goodAll_of (t : Text) (es : List (Node V)) (h : WellNamedElems t es) (g : TablesElems t es) : GoodAll t es := by
  match es, h, g with
  | [], _, _ => trivial
  | e :: es, h, g => exact ⟨good_of _ e h.1 g.1, goodAll_of t es h.2 g.2⟩
end

mutual
theorem named_proper : ∀ (keys : List Text) (e : Node V), WellNamed keys e → Proper e
  | _, .ent _ t ms, h => namedMembers_proper t ms h.2.2.2.2
  | _, .value .., h => by simp [WellNamed] at h
  | _, .rows .., h => by simp [WellNamed] at h
theorem namedMembers_proper (t : Text) : ∀ ms : List (Node V), WellNamedMembers t ms → ProperMembers ms
  | [], _ => trivial
  | .value .. :: ms, h => namedMembers_proper t ms h
  | .ent n t' ms' :: ms, h => ⟨named_proper [] (.ent n t' ms') h.1, namedMembers_proper t ms h.2⟩
  | .rows _ es :: ms, h => ⟨namedElems_proper t es h.1, namedMembers_proper t ms h.2⟩
theorem namedElems_proper (t : Text) : ∀ es : List (Node V), WellNamedElems t es → ProperAll es
  | [], _ => trivial
  | e :: es, h => ⟨named_proper _ e h.1, namedElems_proper t es h.2⟩
end

/-- The nested entities can be stored. -/
def ChildTables : List (Node V) → Prop
  | [] => True
  | .ent n t' ms' :: ms => Tables [] (.ent n t' ms') ∧ ChildTables ms
  | .value .. :: ms => ChildTables ms
  | .rows .. :: ms => ChildTables ms

/-- The elements of the one-to-many members can be stored. -/
def RowTables (t : Text) : List (Node V) → Prop
  | [] => True
  | .rows _ es :: ms => TablesElems t es ∧ RowTables t ms
  | .value .. :: ms => RowTables t ms
  | .ent .. :: ms => RowTables t ms

theorem tablesMembers_iff (t : Text) (ms : List (Node V)) : TablesMembers t ms ↔ ChildTables ms ∧ RowTables t ms := by
  induction ms with
  | nil => simp [TablesMembers, ChildTables, RowTables]
  | cons m ms ih =>
    cases m with
    | value n v => simpa only [TablesMembers, ChildTables, RowTables] using ih
    | ent n t' ms' => simp only [TablesMembers, ChildTables, RowTables, ih, and_assoc]
    | rows n es =>
      simp only [TablesMembers, ChildTables, RowTables, ih]
      constructor
      · rintro ⟨a, b, c⟩; exact ⟨b, a, c⟩
      · rintro ⟨b, a, c⟩; exact ⟨a, b, c⟩

/-- If `P`, the second database is what the insert statements of its additional rows make of the first one; if not,
one of them fails. -/
def StepsIf (fresh : Log V K → Text → K) (P : Prop) (db db' : Log V K) : Prop :=
  ∃ new, db' = db ++ new ∧ (P → changes fresh db (new.map stmtOf) = some db')
    ∧ (¬ P → changes fresh db (new.map stmtOf) = none)

theorem StepsIf.refl (fresh : Log V K → Text → K) (db : Log V K) : StepsIf fresh True db db :=
  ⟨[], by simp, fun _ => rfl, fun h => absurd trivial h⟩

theorem StepsIf.trans {fresh : Log V K → Text → K} {P Q : Prop} {a b c : Log V K} (h : StepsIf fresh P a b)
    (g : StepsIf fresh Q b c) : StepsIf fresh (P ∧ Q) a c := by
  obtain ⟨n, rfl, h1, h2⟩ := h
  obtain ⟨m, rfl, g1, g2⟩ := g
  refine ⟨n ++ m, by simp, fun x => ?_, fun x => ?_⟩
  · rw [List.map_append, changes_append, h1 x.1]; exact g1 x.2
  · rw [List.map_append, changes_append]
    by_cases p : P
    · rw [h1 p]; exact g2 fun q => x ⟨p, q⟩
    · rw [h2 p]; rfl

theorem StepsIf.congr {fresh : Log V K → Text → K} {P Q : Prop} {a b : Log V K} (h : StepsIf fresh P a b)
    (e : P ↔ Q) : StepsIf fresh Q a b := by
  obtain ⟨n, h0, h1, h2⟩ := h
  exact ⟨n, h0, fun q => h1 (e.2 q), fun q => h2 fun p => q (e.1 p)⟩

/-- The insert statement of a row without columns does not compile, and one that names a column twice fails. -/
theorem insert_fails (fresh : Log V K → Text → K) (db : Log V K) (table : Text) (cols : List (Text × Col V K))
    (ht : Clean table) (hc : ∀ c ∈ cols, Clean c.1) (h : ¬ (cols ≠ [] ∧ (cols.map (·.1)).Nodup)) :
    (insertStmt table cols).bind (change fresh db) = none := by
  by_cases hne : cols = []
  · subst hne; rfl
  · have hd : ¬ (cols.map (·.1)).Nodup := fun d => h ⟨hne, d⟩
    obtain ⟨text, h1, h2⟩ := insert_statement table cols hne ht hc
    have hr : read text = some (.insert table (cols.map (·.1))) := by
      refine read_insert text table _ (by simpa using hne) ?_
      rw [h2, List.map_map, List.map_map]; rfl
    rw [h1]
    show change fresh db (text, cols.map (·.2)) = _
    rw [change, hr]
    dsimp only
    rw [execInsert, if_neg (fun x => hd x.2)]

theorem StepsIf.one (fresh : Log V K → Text → K) (db : Log V K) (table : Text)
    (cols : List (Text × Col V K)) (ht : Clean table) (hc : ∀ c ∈ cols, Clean c.1)
    (hk : keyName table ∉ cols.map (·.1)) :
    StepsIf fresh (cols ≠ [] ∧ (cols.map (·.1)).Nodup) db (db ++ [(⟨table, cols⟩, fresh db table)]) := by
  refine ⟨[(⟨table, cols⟩, fresh db table)], rfl, fun h => ?_, fun h => ?_⟩
  · have := change_insert fresh db table cols h.1 ht hc h.2 hk
    simp only [List.map_cons, List.map_nil, changes, stmtOf, this]
    rfl
  · have := insert_fails fresh db table cols ht hc h
    simp only [List.map_cons, List.map_nil, changes, stmtOf, this]
    rfl

mutual
theorem insert_if (fresh : Log V K → Text → K) (keys : List (Text × Col V K))
    (hkc : ∀ c ∈ keys, Clean c.1) (db : Log V K) : ∀ e : Node V, WellNamed (keys.map (·.1)) e →
    StepsIf fresh (Tables (keys.map (·.1)) e) db (insert (assign fresh) (fun k => k) keys db e).1
  | .ent name t ms, h => by
    obtain ⟨h1, h2, h3, h6, h7⟩ := h
    obtain ⟨c1, c2⟩ := insertChildren_if fresh db t ms h7
    have hn : (keys ++ (insertChildren (assign fresh) (fun k => k) db ms).2 ++ valueCols (K := K) ms).map (·.1) =
        keys.map (·.1) ++ childKeys ms ++ plainNames ms := by
      simp only [List.map_append, c2, valueCols_names]
    rw [Sql.insert.eq_def]; dsimp only
    refine (c1.trans ((StepsIf.one fresh _ t _ h1 ?_ (by rw [hn]; exact h6)).trans
      (insertMulti_if fresh t _ _ h1 ms h7))).congr ?_
    · intro c hc
      have hm : c.1 ∈ (keys ++ (insertChildren (assign fresh) (fun k => k) db ms).2 ++ valueCols (K := K) ms).map (·.1) :=
        List.mem_map.2 ⟨c, hc, rfl⟩
      rw [hn, List.mem_append, List.mem_append] at hm
      rcases hm with (hm | hm) | hm
      · obtain ⟨d, hd, e⟩ := List.mem_map.1 hm
        exact e ▸ hkc d hd
      · exact childKeys_clean ms h2 _ hm
      · exact plainNames_clean ms h2 _ hm
    · rw [Tables, tablesMembers_iff, ← hn, ne_eq, ne_eq, List.map_eq_nil_iff]
      constructor
      · rintro ⟨a, ⟨b, c⟩, d⟩; exact ⟨b, c, a, d⟩
      · rintro ⟨b, c, a, d⟩; exact ⟨a, ⟨b, c⟩, d⟩
  | .value .., h => by simp [WellNamed] at h
  | .rows .., h => by simp [WellNamed] at h
theorem insertChildren_if (fresh : Log V K → Text → K) (db : Log V K) (t : Text) :
    ∀ ms : List (Node V), WellNamedMembers t ms →
    StepsIf fresh (ChildTables ms) db (insertChildren (assign fresh) (fun k => k) db ms).1 ∧
      (insertChildren (assign fresh) (fun k => k) db ms).2.map (·.1) = childKeys ms
  | [], _ => ⟨.refl _ _, rfl⟩
  | .ent name t' ms' :: ms, h => by
    have h1 := insert_if fresh [] (by simp) db (.ent name t' ms') h.1
    obtain ⟨h2, h3⟩ := insertChildren_if fresh
      (insert (assign fresh) (fun k => k) [] db (.ent name t' ms')).1 t ms h.2
    rw [insertChildren]
    refine ⟨h1.trans h2, ?_⟩
    simp only [List.map_append, h3]
    rfl
  | .value .. :: ms, h => insertChildren_if fresh db t ms h
  | .rows .. :: ms, h => insertChildren_if fresh db t ms h.2
theorem insertMulti_if (fresh : Log V K → Text → K) (t : Text) (id : K) (db : Log V K)
    (ht : Clean t) : ∀ ms : List (Node V), WellNamedMembers t ms →
    StepsIf fresh (RowTables t ms) db (insertMulti (assign fresh) (fun k => k) t id db ms)
  | [], _ => .refl _ _
  | .rows _ es :: ms, h => by
    rw [insertMulti]
    exact (insertRows_if fresh t id db ht es h.1).trans (insertMulti_if fresh t id _ ht ms h.2)
  | .value .. :: ms, h => insertMulti_if fresh t id db ht ms h
  | .ent .. :: ms, h => insertMulti_if fresh t id db ht ms h.2
theorem insertRows_if (fresh : Log V K → Text → K) (t : Text) (id : K) (db : Log V K)
    (ht : Clean t) : ∀ es : List (Node V), WellNamedElems t es →
    StepsIf fresh (TablesElems t es) db (insertRows (assign fresh) (fun k => k) t id db es)
  | [], _ => .refl _ _
  | e :: es, h => by
    rw [insertRows]
    refine (insert_if fresh [(keyName t, .key id)] ?_ db e h.1).trans (insertRows_if fresh t id _ ht es h.2)
    intro c hc
    simp only [List.mem_singleton] at hc
    subst hc
    exact clean_key ht
end

/-- C128: whatever the entity, its statements are accepted exactly if every table has a column and no two columns of
a table have the same name; if not, one of them does not compile or is refused. -/
theorem store_exact (fresh : Log V K → Text → K) (db : Log V K) (e : Node V) (hn : WellNamed [] e) :
    ∃ new k, store fresh db e = (db ++ new, some k)
      ∧ (Tables [] e → changes fresh db (new.map fun r => insertStmt r.1.table r.1.cols) = some (db ++ new))
      ∧ (¬ Tables [] e → changes fresh db (new.map fun r => insertStmt r.1.table r.1.cols) = none) := by
  obtain ⟨new, k, h1, -, -, -⟩ := insert_ok (assign fresh) [] db (by intro n k h; simp at h) e
    (named_proper [] _ hn)
  obtain ⟨new', s1, s2, s3⟩ := insert_if fresh [] (by simp) db e hn
  rw [h1] at s1 s2
  dsimp only at s1 s2
  obtain rfl := List.append_cancel_left s1
  exact ⟨new, k, h1, s2, s3⟩

/-- C128, exactly: an entity is stored by its statements and then read back, in every database, exactly if every table
has a column and no two with the same name, the entity has a nested entity and no one-to-many members of its
own, and there is a plain member in it or in a nested one. -/
theorem store_fetch_exact {fresh : Log V K → Text → K} (hf : Fresh fresh) (name table : Text) (ms : List (Node V))
    (hn : WellNamed [] (.ent name table ms)) (db : Log V K) (hk : Keyed db) :
    (∃ new k, store fresh db (.ent name table ms) = (db ++ new, some k)
      ∧ changes fresh db (new.map fun r => insertStmt r.1.table r.1.cols) = some (db ++ new)
      ∧ ∃ row, fetch (db ++ new) table (typesOf ms) k = some [row] ∧ Shows table ms row)
    ↔ Tables [] (.ent name table ms) ∧ (∀ n es, Node.rows n es ∉ ms) ∧ (∃ n t ms', Node.ent n t ms' ∈ ms)
      ∧ ∃ path t ms' n v, NodeAt table ms path t ms' ∧ .value n v ∈ ms' := by
  constructor
  · rintro ⟨new, k, h1, h2, row, h3, -⟩
    obtain ⟨new', k', g1, g2, g3⟩ := store_exact fresh db (.ent name table ms) hn
    rw [h1] at g1
    simp only [Prod.mk.injEq, List.append_cancel_left_eq, Option.some.injEq] at g1
    obtain ⟨rfl, rfl⟩ := g1
    have hsel : select table (typesOf ms) [(qualified table (keyName table), Col.key (V := V) k)] ≠ none := by
      intro e; rw [fetch, e] at h3; cases h3
    have hr : ∀ n es, Node.rows n es ∉ ms := by
      intro n es hm
      apply hsel
      rw [select, if_pos]
      rw [List.any_eq_true]
      exact ⟨_, mem_types hm, rfl⟩
    have hch : ∃ n t ms', Node.ent n t ms' ∈ ms := by
      refine Classical.byContradiction fun h => hsel (flat_entity_violated _ _ _ ?_)
      intro n t tms hm
      obtain ⟨ms', h', -⟩ := ent_mem_types hm
      exact h ⟨n, t, ms', h'⟩
    have hcol : aliasedColumns table (typesOf ms) ≠ [] := by
      intro e
      apply hsel
      rw [select, columnsClause, e]
      split <;> rfl
    refine ⟨Classical.byContradiction fun h => ?_, hr, hch, ?_⟩
    · rw [g3 h] at h2; cases h2
    · obtain ⟨c, hc⟩ := List.exists_mem_of_ne_nil _ hcol
      obtain ⟨path, t, tms, p1, -, p3⟩ := (columns_exact ..).1 hc
      obtain ⟨ms', q1, rfl⟩ := nodeAt_of_entAt p1
      obtain ⟨v, q2⟩ := value_mem_types p3
      exact ⟨path, t, ms', c.2, v, q1, q2⟩
  · rintro ⟨ht, hr, hch, hcol⟩
    obtain ⟨new, k, h1, -, h3, h4⟩ := store_fetch_partial hf hk name table ms (good_of [] _ hn ht) hr hch hcol
    refine ⟨new, k, h1, h3, ?_⟩
    have hkd : Keyed (db ++ new) := by
      have := store_keyed hf hk (.ent name table ms) (good_of [] _ hn ht)
      rw [h1] at this
      exact this
    have := h4 [] (by simpa using hkd)
    simpa using this

/-- An entity with a plain member `foo_id` and a nested entity `foo`: it can be named, and not stored. -/
example : WellNamed [] (.ent [] "t".toList [.value "foo_id".toList 5, .ent "foo".toList "foo".toList [.value "x".toList 1]]
      : Node Nat)
    ∧ ¬ Tables [] (.ent [] "t".toList [.value "foo_id".toList 5, .ent "foo".toList "foo".toList [.value "x".toList 1]]
      : Node Nat) := by
  simp [WellNamed, WellNamedMembers, Tables, childKeys, plainNames, nodeName, Clean]

example : WellNamed [] (.ent [] "baz".toList bazMembers) ∧ Tables [] (.ent [] "baz".toList bazMembers) := by
  simp [WellNamed, WellNamedMembers, Tables, TablesMembers, childKeys, plainNames, nodeName, Clean, bazMembers, exFoo]

end Nbdl.SqlDb
