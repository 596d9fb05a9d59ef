import Verif.SqlDb.Fetch
/-!
# C128: what has been stored is what is read
-/
namespace Nbdl.SqlDb
open Sql Sql.Spec Spec

variable {V K : Type} [DecidableEq V] [DecidableEq K]

/-- The row is the one of the entity that the alias stands for. -/
def RowFor (db : Log V K) (table : Text) (ms : List (Node V)) (x : Text) (e : Row V K × K) : Prop :=
  ∃ path t ms' ids, x = aliasPath table path ∧ NodeAt table ms path t ms' ∧ e.1 = ⟨t, ids ++ valueCols ms'⟩ ∧ e ∈ db ∧
    StoredChildren db ids ms'

omit [DecidableEq V] [DecidableEq K] in
theorem stored_row {db : Log V K} {k : K} {n t : Text} {ms : List (Node V)} (h : Stored db [] k (.ent n t ms)) :
    ∃ ids, ((⟨t, ids ++ valueCols ms⟩, k) : Row V K × K) ∈ db ∧ StoredChildren db ids ms := by
  obtain ⟨ids, h1, h2, -⟩ := h
  refine ⟨ids, ?_, h2⟩
  rw [valueCols_plain]; exact h1

theorem rowFor_cell {db : Log V K} {table : Text} {ms : List (Node V)} (hg : Good [] (.ent [] table ms))
    {path : List Text} {t : Text} {ms' : List (Node V)} (hn : NodeAt table ms path t ms')
    {e : Row V K × K} (hr : RowFor db table ms (aliasPath table path) e) :
    ∃ ids, e.1 = ⟨t, ids ++ valueCols ms'⟩ ∧ e ∈ db ∧ StoredChildren db ids ms' ∧
      ∀ c y, (c, y) ∈ ids ++ valueCols ms' → cell e c = some y := by
  obtain ⟨path', t', ms1, ids, h1, h2, h3, h4, h5⟩ := hr
  obtain rfl := aliasPath_inj (fun n h => (nodeAt_path hg hn n h).2) (fun n h => (nodeAt_path hg h2 n h).2) h1
  obtain ⟨rfl, rfl⟩ := nodeAt_unique hg hn h2
  refine ⟨ids, h3, h4, h5, fun c y hy => ?_⟩
  obtain ⟨-, -, -, -, g5, g6, -⟩ := nodeAt_good hg hn
  have hnames : (ids ++ valueCols (K := K) ms').map (·.1) = [] ++ childKeys ms' ++ plainNames ms' := by
    rw [List.map_append, storedChildren_names h5, valueCols_names]; rfl
  obtain ⟨e1, e2⟩ := e
  dsimp only at h3
  subst h3
  exact cell_col t _ e2 (by rw [hnames]; exact g5) (by rw [hnames]; exact g6) hy

/-- Every join of the query finds the row of a nested entity. -/
theorem rowFor_step {db : Log V K} {table : Text} {ms : List (Node V)} (hg : Good [] (.ent [] table ms)) (a : Alias)
    (ha : a ∈ tableAliases table (typesOf ms)) (p : Row V K × K) (hp : RowFor db table ms a.parent p) :
    ∃ r ∈ db, r.1.table = a.table ∧ cell p (keyName a.member) = some (.key r.2) ∧ RowFor db table ms a.alias r := by
  obtain ⟨path, t, tms, tms', h1, h2, h3, h4⟩ := (joins_exact ..).1 ha
  obtain ⟨ms1, g1, rfl⟩ := nodeAt_of_entAt h1
  obtain ⟨ms2, g2, -⟩ := ent_mem_types h2
  rw [h4] at hp
  obtain ⟨ids, q1, q2, q3, q4⟩ := rowFor_cell hg g1 hp
  obtain ⟨k, k1, k2⟩ := storedChildren_mem q3 g2
  obtain ⟨ids', r1, r2⟩ := stored_row k2
  exact ⟨_, r1, rfl, q4 _ _ (List.mem_append_left _ k1), path ++ [a.member], a.table, ms2, ids', h3, .child g1 g2, rfl, r1, r2⟩

theorem inScope_of {js : List Alias} : ∀ {known : List Text}, Introduced known js →
    inScope known (js.map toJoin) = true := by
  induction js with
  | nil => intro _ _; rfl
  | cons a js ih =>
    intro known h
    rw [List.map_cons, inScope, Bool.and_eq_true, decide_eq_true_eq]
    exact ⟨⟨List.mem_cons_of_mem _ h.1, List.mem_cons_self ..⟩, ih h.2⟩

/-- The query of a stored entity gives exactly one row, and it shows the entity. -/
theorem fetch_stored {db : Log V K} (hk : Keyed db) (name table : Text) (ms : List (Node V))
    (hg : Good [] (.ent name table ms)) (hr : ∀ n es, Node.rows n es ∉ ms)
    (hch : ∃ n t ms', Node.ent n t ms' ∈ ms)
    (hcol : ∃ path t ms' n v, NodeAt table ms path t ms' ∧ .value n v ∈ ms')
    (k : K) (hs : Stored db [] k (.ent name table ms)) :
    ∃ row, fetch db table (typesOf ms) k = some [row] ∧ row.map (·.1) = aliasedColumns table (typesOf ms) ∧
      Shows table ms row := by
  have hg : Good [] (.ent [] table ms) := by rw [Good] at hg ⊢; exact hg
  have hg' := hg
  rw [Good] at hg'
  obtain ⟨g1, g2, g3, -, -, -, g7⟩ := hg'
  have hnd : ((typesOf ms).map memberName).Nodup := by rw [typesOf_names]; exact g3
  have hnam : NamedAll (typesOf ms) := goodMembers_named table ms g7 fun n h => (g2 n h).2
  -- the statement
  have hcne : aliasedColumns table (typesOf ms) ≠ [] := by
    obtain ⟨path, t, ms', n, v, h1, h2⟩ := hcol
    exact List.ne_nil_of_mem ((columns_exact _ _ (aliasPath table path, n)).2
      ⟨path, t, _, entAt_of_nodeAt h1, rfl, mem_types h2⟩)
  have hjne : tableAliases table (typesOf ms) ≠ [] := by
    obtain ⟨n, t, ms', h⟩ := hch
    exact List.ne_nil_of_mem ((joins_exact _ _ ⟨n, t, aliasPath table [n], table⟩).2
      ⟨[], table, _, _, .root, mem_types h, rfl, rfl⟩)
  have hcc : ∀ c ∈ aliasedColumns table (typesOf ms), Clean c.1 ∧ Clean c.2 := by
    intro c hc
    obtain ⟨path, t, tms, h1, h2, h3⟩ := (columns_exact ..).1 hc
    obtain ⟨ms1, h4, rfl⟩ := nodeAt_of_entAt h1
    obtain ⟨v, h5⟩ := value_mem_types h3
    refine ⟨h2 ▸ aliasPath_clean g1 fun n hn => (nodeAt_path hg h4 n hn).1, ?_⟩
    exact ((nodeAt_good hg h4).2.1 _ (List.mem_map.2 ⟨_, h5, rfl⟩)).1
  have hac : ∀ a ∈ tableAliases table (typesOf ms), Clean a.member ∧ Clean a.table ∧ Clean a.alias ∧ Clean a.parent := by
    intro a ha
    obtain ⟨path, t, tms, tms', h1, h2, h3, h4⟩ := (joins_exact ..).1 ha
    obtain ⟨ms1, h5, rfl⟩ := nodeAt_of_entAt h1
    obtain ⟨ms2, h6, -⟩ := ent_mem_types h2
    have hc := NodeAt.child h5 h6
    refine ⟨((nodeAt_good hg h5).2.1 _ (List.mem_map.2 ⟨_, h6, rfl⟩)).1, (nodeAt_good hg hc).1, ?_, ?_⟩
    · rw [h3]; exact aliasPath_clean g1 fun n hn => (nodeAt_path hg hc n hn).1
    · rw [h4]; exact aliasPath_clean g1 fun n hn => (nodeAt_path hg h5 n hn).1
  obtain ⟨text, s1, s2⟩ := select_text_partial (V := Col V K) table (typesOf ms)
    [(qualified table (keyName table), .key k)] [column (table, keyName table)]
    (by
      intro n hn
      rw [typesOf_eq] at hn
      obtain ⟨m, hm, e⟩ := List.mem_map.1 hn
      cases m with
      | rows a b => exact hr a b hm
      | value a b => simp [typeOf] at e
      | ent a b c => simp [typeOf] at e)
    hcne hjne (by simp) g1 hcc hac rfl
    (by
      intro p hp
      simp only [List.map_cons, List.map_nil, List.zip_cons_cons, List.zip_nil_left, List.mem_singleton] at hp
      subst hp
      exact qualified_isColumn _ _ g1 (clean_key g1))
  have hread : read text = some (.select (aliasedColumns table (typesOf ms)) table
      ((tableAliases table (typesOf ms)).map toJoin) (table, keyName table)) :=
    read_select text table _ _ _ hcne (by rw [s2]; simp [sep])
  -- the row
  obtain ⟨ids, r1, r2⟩ := stored_row hs
  have hroot : RowFor db table ms table (⟨table, ids ++ valueCols ms⟩, k) :=
    ⟨[], table, ms, ids, rfl, .root, rfl, r1, r2⟩
  have hdis := aliases_distinct table (typesOf ms) hnd hnam
  rw [List.nodup_cons] at hdis
  obtain ⟨env', v1, v2⟩ := joins_eval hk (RowFor db table ms) (tableAliases table (typesOf ms))
    (rowFor_step hg) [table] [(table, (⟨table, ids ++ valueCols ms⟩, k))] (joins_introduced ..)
    (by
      intro a ha hm
      rw [List.mem_singleton] at hm
      exact hdis.1 (List.mem_map.2 ⟨a, ha, hm⟩)) hdis.2
    (by
      intro x hx
      rw [List.mem_singleton] at hx
      subst hx
      exact ⟨_, look_cons_self .., hroot⟩)
  have hother : ∀ j ∈ (tableAliases table (typesOf ms)).map toJoin, j.alias ≠ table := by
    intro j hj e
    obtain ⟨a, ha, rfl⟩ := List.mem_map.1 hj
    exact hdis.1 (List.mem_map.2 ⟨a, ha, e⟩)
  -- the condition
  have hkey : ∀ e : Row V K × K, e.1.table = table → ∀ env ∈ ((tableAliases table (typesOf ms)).map toJoin).foldl
      (evalJoin db) [[(table, e)]], cellOf env (table, keyName table) = some (.key e.2) := by
    intro e he env henv
    obtain ⟨env0, h0, h1⟩ := joins_keep db table _ hother _ env henv
    rw [List.mem_singleton] at h0
    subst h0
    rw [cellOf_look]
    show (look env table).bind (fun e => cell e (keyName table)) = _
    rw [h1, look_cons_self, ← he]
    exact cell_key e
  have hrows : ((((tableAliases table (typesOf ms)).map toJoin).foldl (evalJoin db)
      ((db.filter fun e => e.1.table = table).map fun e => [(table, e)])).filter
        fun env => cellOf env (table, keyName table) = some (.key k)) = [env'] := by
    rw [joins_flatMap, List.flatMap_map, List.filter_flatMap]
    have hmem : ((⟨table, ids ++ valueCols ms⟩, k) : Row V K × K) ∈ db.filter fun e => e.1.table = table :=
      List.mem_filter.2 ⟨r1, by simp⟩
    rw [flatMap_single _ (List.Nodup.sublist List.filter_sublist (nodup_of_map hk)) hmem]
    · have := hkey (⟨table, ids ++ valueCols ms⟩, k) rfl env' (by rw [v1]; simp)
      rw [v1, List.filter_cons_of_pos (by simpa using this)]; rfl
    · intro e he hne
      rw [List.filter_eq_nil_iff]
      intro env henv hc
      obtain ⟨he1, he2⟩ := List.mem_filter.1 he
      have he2 : e.1.table = table := by simpa using he2
      rw [hkey e he2 env henv] at hc
      exact hne (keyed_inj hk he1 r1 he2 (by simpa using hc))
  refine ⟨(aliasedColumns table (typesOf ms)).map fun c => (c, cellOf env' c), ?_, ?_, ?_, ?_⟩
  · rw [fetch, s1]
    show query db (text, [.key k]) = _
    rw [query, hread]
    dsimp only
    rw [execSelect]
    dsimp only
    rw [if_pos, hrows]
    · rfl
    · have e : ((tableAliases table (typesOf ms)).map toJoin).map (·.alias) =
          (tableAliases table (typesOf ms)).map (·.alias) := by rw [List.map_map]; rfl
      rw [e]
      refine ⟨List.nodup_cons.2 hdis, inScope_of (joins_introduced ..), by simp, ?_⟩
      intro c hc
      obtain ⟨path, t, tms, h1, h2, h3⟩ := (columns_exact ..).1 hc
      cases h1 with
      | root => rw [h2]; exact List.mem_cons_self ..
      | child h1 hm =>
        refine List.mem_cons_of_mem _ (List.mem_map.2 ⟨⟨_, _, c.1, _⟩, (joins_exact ..).2 ⟨_, _, _, _, h1, hm, h2, rfl⟩, rfl⟩)
  · rw [List.map_map]; simp [Function.comp_def]
  · rw [List.map_map]
    simpa [Function.comp_def] using columns_distinct table (typesOf ms) hnd hnam
  · have hval : ∀ path t ms' n v, NodeAt table ms path t ms' → .value n v ∈ ms' →
        cellOf env' (aliasPath table path, n) = some (.value v) := by
      intro path t ms' n v h1 h2
      obtain ⟨e, e1, e2⟩ := v2 (aliasPath table path) (by
        cases h1 with
        | root => exact .inl (by simp [aliasPath])
        | child h1 hm =>
          exact .inr (List.mem_map.2 ⟨⟨_, _, _, _⟩, (joins_exact ..).2
            ⟨_, _, _, _, entAt_of_nodeAt h1, mem_types hm, rfl, rfl⟩, rfl⟩))
      obtain ⟨ids', -, -, -, q⟩ := rowFor_cell hg h1 e2
      rw [cellOf_look, e1]
      refine q n (.value v) (List.mem_append_right _ ?_)
      rw [valueCols_plain]
      exact List.mem_filterMap.2 ⟨_, h2, rfl⟩
    intro c
    constructor
    · intro hc
      obtain ⟨d, hd, rfl⟩ := List.mem_map.1 hc
      obtain ⟨path, t, tms, h1, h2, h3⟩ := (columns_exact ..).1 hd
      obtain ⟨ms1, h4, rfl⟩ := nodeAt_of_entAt h1
      obtain ⟨v, h5⟩ := value_mem_types h3
      refine ⟨path, t, ms1, d.2, v, h4, h5, ?_⟩
      rw [← hval path t ms1 d.2 v h4 h5, ← h2]
    · rintro ⟨path, t, ms', n, v, h1, h2, rfl⟩
      refine List.mem_map.2 ⟨(aliasPath table path, n), (columns_exact ..).2
        ⟨path, t, _, entAt_of_nodeAt h1, rfl, mem_types h2⟩, ?_⟩
      rw [hval path t ms' n v h1 h2]

/-- C128: storing an entity, nested to any depth, executes one statement for each of its entities; selecting it by
the key that was returned gives exactly one row, with the value of every plain member of the entity and of all
nested entities, each under its path, and nothing else.  So it does when rows have been added later on.
Partial: the columns of a table must have different names (`Good`; see `column_clash_violated`); the entity
has a nested entity (an entity without cannot be selected: `Sql.flat_entity_violated`), and no one-to-many members
of its own (refused by select; those of nested entities are stored but not read). -/
theorem store_fetch_partial {fresh : Log V K → Text → K} (hf : Fresh fresh) {db : Log V K} (hk : Keyed db)
    (name table : Text) (ms : List (Node V)) (hg : Good [] (.ent name table ms)) (hr : ∀ n es, Node.rows n es ∉ ms)
    (hch : ∃ n t ms', Node.ent n t ms' ∈ ms)
    (hcol : ∃ path t ms' n v, NodeAt table ms path t ms' ∧ .value n v ∈ ms') :
    ∃ new k, store fresh db (.ent name table ms) = (db ++ new, some k) ∧
      new.length = size (.ent name table ms) ∧
      changes fresh db (new.map fun r => insertStmt r.1.table r.1.cols) = some (db ++ new) ∧
      ∀ later, Keyed (db ++ new ++ later) →
        ∃ row, fetch (db ++ new ++ later) table (typesOf ms) k = some [row] ∧ Shows table ms row := by
  obtain ⟨new, k, h1, h2, h3, -⟩ := insert_ok (assign fresh) [] db (by intro n k h; simp at h) (.ent name table ms)
    (good_proper [] _ hg)
  obtain ⟨new', s1, s2, s3⟩ := insert_steps hf [] (by simp) db (.ent name table ms) hg
  rw [h1] at s1 s2 s3
  dsimp only at s1 s2 s3
  obtain rfl := List.append_cancel_left s1
  refine ⟨new, k, h1, h2, s2, fun later hl => ?_⟩
  obtain ⟨row, r1, -, r2⟩ := fetch_stored hl name table ms hg hr hch hcol k
    (Stored.mono (fun x hx => List.mem_append_left _ hx) [] k _ h3)
  exact ⟨row, r1, r2⟩

/-- After storing, the keys of each table are still different. -/
theorem store_keyed {fresh : Log V K → Text → K} (hf : Fresh fresh) {db : Log V K} (hk : Keyed db) (e : Node V)
    (hg : Good [] e) : Keyed (store fresh db e).1 := by
  obtain ⟨_, -, -, h⟩ := insert_steps hf [] (by simp) db e hg
  exact h hk

/-- Keys that count up. -/
def counting (db : Log V Nat) (_ : Text) : Nat := (db.map (·.2)).foldl max 0 + 1

theorem le_foldl_max (l : List Nat) : ∀ a : Nat, a ≤ l.foldl max a ∧ ∀ x ∈ l, x ≤ l.foldl max a := by
  induction l with
  | nil => intro a; simp
  | cons y l ih =>
    intro a
    obtain ⟨h1, h2⟩ := ih (max a y)
    rw [List.foldl_cons]
    refine ⟨by omega, fun x hx => ?_⟩
    rcases List.mem_cons.1 hx with rfl | hx
    · omega
    · exact h2 x hx

omit [DecidableEq V] in
theorem counting_fresh : Fresh (counting (V := V)) := by
  intro db t e he _ h
  have := (le_foldl_max (db.map (·.2)) 0).2 e.2 (List.mem_map.2 ⟨e, he, rfl⟩)
  rw [counting] at h
  omega

/-- The entity of the tests, test/nbdl/sql_db/insert.cpp. -/
def bazMembers : List (Node Nat) := [.value "baz_value".toList 7, exFoo "baz_foo" 42,
    .ent "baz_bar".toList "bar".toList [.value "bar_value".toList 5, exFoo "bar_foo" 82]]

example : Good [] (.ent [] "baz".toList bazMembers) := by
  simp only [Good, GoodMembers, bazMembers, exFoo, List.map_cons, List.map_nil, nodeName, childKeys, plainNames,
    List.filterMap_cons, List.filterMap_nil, and_true, Clean]
  repeat' apply And.intro
  all_goals decide
example : (∀ n es, Node.rows n es ∉ bazMembers) ∧ (∃ n t ms', Node.ent n t ms' ∈ bazMembers)
    ∧ (∃ path t ms' n v, NodeAt "baz".toList bazMembers path t ms' ∧ .value n v ∈ ms') :=
  ⟨by simp [bazMembers, exFoo], ⟨_, _, _, .tail _ (.head _)⟩, ⟨[], _, _, _, _, .root, .head _⟩⟩
/-- Stored twice, the second one is read. -/
def storedTwice : Log Nat Nat :=
  (store counting (store counting [] (.ent [] "baz".toList bazMembers)).1 (.ent [] "baz".toList bazMembers)).1
example : (fetch storedTwice "baz".toList (typesOf bazMembers) 8).map (·.map (·.map fun c =>
      (String.ofList c.1.1, String.ofList c.1.2, c.2))) =
    some [[("baz", "baz_value", some (.value 7)), ("baz.baz_foo", "foo_value", some (.value 42)),
      ("baz.baz_bar", "bar_value", some (.value 5)), ("baz.baz_bar.bar_foo", "foo_value", some (.value 82))]] := by
  set_option synthInstance.maxSize 2000 in decide +kernel

/-- VIOLATION: a plain member that is called `foo_id` and a nested entity that is called `foo` use the same column:
the statement for their entity fails on every database. -/
theorem column_clash_violated (fresh : Log V K → Text → K) (db : Log V K) (table foo : Text) (k : K) (v : V)
    (ht : Clean table) (hfoo : Clean foo) :
    (insertStmt table [(keyName foo, .key k), (foo ++ "_id".toList, .value v)]).bind (change fresh db) = none := by
  obtain ⟨text, h1, h2⟩ := insert_statement (V := Col V K) table [(keyName foo, .key k), (foo ++ "_id".toList, .value v)]
    (by simp) ht (by
      intro c hc
      simp only [List.mem_cons, List.not_mem_nil, or_false] at hc
      rcases hc with rfl | rfl
      · exact clean_key hfoo
      · exact clean_key hfoo)
  have hr : read text = some (.insert table [keyName foo, foo ++ "_id".toList]) :=
    read_insert text table _ (by simp) h2
  rw [h1]
  show change fresh db (text, _) = _
  rw [change, hr]
  dsimp only
  rw [execInsert, if_neg]
  rintro ⟨-, h⟩
  simp [keyName] at h

/-- The row the members `foo_id` and `foo` lead to. -/
example : (store (V := Nat) (K := Nat) counting [] (.ent [] "t".toList [.value "foo_id".toList 5,
    .ent "foo".toList "foo".toList [.value "x".toList 1]])).1.map (·.1.cols.map fun c => String.ofList c.1) =
    [["x"], ["foo_id", "foo_id"]] := by decide

/-! ## C129: updates -/

omit [DecidableEq V] [DecidableEq K] in
theorem find_valueCols (ms : List (Node V)) (c : Text) :
    ((valueCols (K := K) ms).find? (·.1 = c)).map (·.2) = (valueOf ms c).map .value := by
  induction ms with
  | nil => rfl
  | cons m ms ih =>
    cases m with
    | ent a b d => simpa [valueCols, valueOf] using ih
    | rows a b => simpa [valueCols, valueOf] using ih
    | value n v =>
      rw [valueCols, List.find?_cons, valueOf, List.findSome?_cons]
      by_cases h : n = c
      · simp [h]
      · simp only [h, decide_false, if_false]; exact ih

omit [DecidableEq V] [DecidableEq K] in
theorem find_filter_ne (cols new : List (Text × Col V K)) (c : Text) (h : c ∉ new.map (·.1)) :
    (cols.filter fun d => d.1 ∉ new.map (·.1)).find? (·.1 = c) = cols.find? (·.1 = c) := by
  induction cols with
  | nil => rfl
  | cons d cols ih =>
    by_cases hd : d.1 ∈ new.map (·.1)
    · rw [List.filter_cons_of_neg (by simpa using hd), ih, List.find?_cons_of_neg]
      simp only [decide_eq_true_eq]
      intro e; exact h (e ▸ hd)
    · rw [List.filter_cons_of_pos (by simpa using hd), List.find?_cons, List.find?_cons, ih]

/-- The columns of a row that has been updated. -/
theorem setCols_cell (e : Row V K × K) (ms : List (Node V)) (hk : keyName e.1.table ∉ plainNames ms) (c : Text) :
    cell (setCols e (valueCols ms)) c = ((valueOf ms c).map .value).or (cell e c) := by
  rw [cell]
  show (if c = keyName e.1.table then some (Col.key (V := V) e.2) else
    ((valueCols (K := K) ms ++ e.1.cols.filter fun d => d.1 ∉ (valueCols (K := K) ms).map (·.1)).find?
      (·.1 = c)).map (·.2)) = _
  by_cases h : c = keyName e.1.table
  · have hv : valueOf ms c = none := by
      rw [valueOf, List.findSome?_eq_none_iff]
      intro m hm
      cases m with
      | value n v =>
        dsimp only
        rw [if_neg]
        intro e2
        exact hk (List.mem_filterMap.2 ⟨_, hm, by rw [← h, ← e2]⟩)
      | _ => rfl
    rw [if_pos h, hv, cell, if_pos h]; rfl
  · rw [if_neg h, cell, if_neg h, List.find?_append]
    have hf := find_valueCols (K := K) ms c
    cases hx : (valueCols (K := K) ms).find? (·.1 = c) with
    | some x => rw [hx] at hf; rw [← hf]; rfl
    | none =>
      rw [hx] at hf
      rw [← hf]
      show Option.map _ (List.find? _ _) = _
      rw [find_filter_ne]
      · rfl
      · intro hm
        obtain ⟨y, hy, e2⟩ := List.mem_map.1 hm
        have := (List.find?_eq_none.1 hx) y hy
        simp [e2] at this

omit [DecidableEq V] [DecidableEq K] in
theorem updateFirst_spec {db : Log V K} (p : Row V K × K → Bool) (f : Row V K × K → Row V K × K)
    (h : ∀ (i j : Nat) (a b : Row V K × K), db[i]? = some a → db[j]? = some b → p a = true → p b = true → i = j) :
    (updateFirst p f db).length = db.length ∧
    ∀ (i : Nat) (e : Row V K × K), db[i]? = some e → (updateFirst p f db)[i]? = some (if p e then f e else e) := by
  induction db with
  | nil => exact ⟨rfl, fun i e he => by simp at he⟩
  | cons x db ih =>
    rw [updateFirst]
    by_cases hx : p x = true
    · rw [if_pos hx]
      refine ⟨rfl, fun i e he => ?_⟩
      cases i with
      | zero =>
        simp only [List.getElem?_cons_zero, Option.some.injEq] at he
        subst he
        simp [hx]
      | succ i =>
        rw [List.getElem?_cons_succ] at he ⊢
        rw [he, if_neg]
        intro hp
        exact absurd (h 0 (i + 1) x e (by simp) (by simpa using he) hx hp) (by omega)
    · rw [if_neg hx]
      obtain ⟨h1, h2⟩ := ih fun i j a b ha hb hpa hpb => by
        have := h (i + 1) (j + 1) a b (by simpa using ha) (by simpa using hb) hpa hpb
        omega
      refine ⟨by simp [h1], fun i e he => ?_⟩
      cases i with
      | zero =>
        simp only [List.getElem?_cons_zero, Option.some.injEq] at he
        subst he
        simp [hx]
      | succ i =>
        rw [List.getElem?_cons_succ] at he ⊢
        exact h2 i e he

omit [DecidableEq V] [DecidableEq K] in
theorem keyed_index {db : Log V K} (hk : Keyed db) {i j : Nat} {a b : Row V K × K} (ha : db[i]? = some a)
    (hb : db[j]? = some b) (ht : a.1.table = b.1.table) (h2 : a.2 = b.2) : i = j := by
  obtain rfl := keyed_inj hk (List.mem_of_getElem? ha) (List.mem_of_getElem? hb) ht h2
  have hi : i < db.length := by rw [List.getElem?_eq_some_iff] at ha; exact ha.1
  exact (List.getElem?_inj hi (nodup_of_map hk)).1 (ha.trans hb.symm)

/-- C129: updating an entity by its primary key changes exactly the plain members in the row with this key, and no
other column and no other row; with a key that is not there, nothing is changed.
Partial: with exactly one key, that has the name of the primary key (see `wrong_key_violated`; several keys do not
give a statement of SQL, `Sql.criteria_not_conjunction_violated`), for entities without nested entities
(refused by update). -/
theorem update_partial (fresh : Log V K → Text → K) {db : Log V K} (hk : Keyed db) (table : Text)
    (ms : List (Node V)) (hg : Good [] (.ent [] table ms)) (hflat : ∀ m ∈ ms, ∃ n v, m = .value n v) (k : K) :
    ∃ db', modify fresh db table ms [⟨table ++ "_id".toList, k, some table⟩] = some db' ∧
      Changed db db' table k ms := by
  obtain ⟨g1, g2, g3, g4, g5, g6, -⟩ := hg
  have hck : childKeys ms = [] := by
    rw [childKeys, List.filterMap_eq_nil_iff]
    intro m hm
    obtain ⟨n, v, rfl⟩ := hflat m hm
    rfl
  rw [hck] at g4 g5 g6
  simp only [List.nil_append] at g4 g5 g6
  have hup : update table ms [⟨table ++ "_id".toList, k, some table⟩] =
      some (table, valueCols ms, [(table ++ "_id".toList, k)]) := by
    rw [update, if_pos (by simp [isPrimaryKey]), if_neg]
    · rfl
    · simp only [List.any_eq_true, not_exists, not_and]
      intro m hm
      obtain ⟨n, v, rfl⟩ := hflat m hm
      simp [Node.isNested]
  have hvn : (valueCols (K := K) ms).map (·.1) = plainNames ms := valueCols_names ms
  obtain ⟨text, h1, h2⟩ := update_statement_partial (V := Col V K) table (valueCols ms)
    [(table ++ "_id".toList, .key k)]
    (by intro e; rw [e] at hvn; exact g4 hvn.symm) (by simp) g1
    (by
      intro c hc
      exact plainNames_clean ms g2 _ (hvn ▸ List.mem_map.2 ⟨c, hc, rfl⟩))
    (by
      intro c hc
      rw [List.mem_singleton] at hc
      subst hc
      exact clean_key g1)
  have hread : read text = some (.update table (plainNames ms) (table ++ "_id".toList)) := by
    refine read_update text table _ _ g4 ?_
    rw [h2, ← hvn, List.map_map]; rfl
  have hkn : keyName table = table ++ "_id".toList := rfl
  obtain ⟨u1, u2⟩ := updateFirst_spec (db := db)
    (fun e => e.1.table = table && cell e (table ++ "_id".toList) = some (.key k))
    (fun e => setCols e (valueCols ms)) (by
      intro i j a b ha hb hpa hpb
      simp only [Bool.and_eq_true, decide_eq_true_eq] at hpa hpb
      have c1 := cell_key a
      have c2 := cell_key b
      rw [hpa.1, hkn, hpa.2] at c1
      rw [hpb.1, hkn, hpb.2] at c2
      simp only [Option.some.injEq, Col.key.injEq] at c1 c2
      exact keyed_index hk ha hb (hpa.1.trans hpb.1.symm) (c1.symm.trans c2))
  refine ⟨_, ?_, u1, fun i e he => ⟨_, u2 i e he, ?_⟩⟩
  · rw [modify, hup]
    show ((updateStmt table (valueCols ms) [(table ++ "_id".toList, Col.key k)]).bind (change fresh db)) = _
    rw [h1]
    show change fresh db (text, (valueCols ms).map (·.2) ++ [.key k]) = _
    rw [change, hread]
    dsimp only
    have hlen : (plainNames ms).length = ((valueCols (K := K) ms).map (·.2)).length := by rw [← hvn]; simp
    rw [execUpdate, hlen, List.drop_left]
    dsimp only
    have hzip : (plainNames ms).zip ((valueCols (K := K) ms).map (·.2) ++ [.key k]) = valueCols ms := by
      have h := List.zip_append (l₁ := plainNames ms) (r₁ := []) (l₂ := (valueCols (K := K) ms).map (·.2))
        (r₂ := [.key k]) hlen
      simp only [List.append_nil, List.zip_nil_left] at h
      rw [h, ← hvn, zip_unzip]
    rw [if_pos ⟨g5, by rw [hkn]; exact g6⟩, hzip]
  · have hc := cell_key e
    by_cases hp : e.1.table = table ∧ e.2 = k
    · have hq : (decide (e.1.table = table) && decide (cell e (table ++ "_id".toList) = some (.key k))) = true := by
        rw [Bool.and_eq_true, decide_eq_true_eq, decide_eq_true_eq]
        rw [hp.1, hp.2, hkn] at hc
        exact ⟨hp.1, hc⟩
      rw [if_pos hq]
      refine ⟨rfl, rfl, fun h => absurd hp h, fun _ c => ?_⟩
      exact setCols_cell e ms (by rw [hp.1, hkn]; exact g6) c
    · have hq : ¬ (decide (e.1.table = table) && decide (cell e (table ++ "_id".toList) = some (.key k))) = true := by
        rw [Bool.and_eq_true, decide_eq_true_eq, decide_eq_true_eq]
        rintro ⟨h1, h2⟩
        rw [h1, hkn, h2] at hc
        simp only [Option.some.injEq, Col.key.injEq] at hc
        exact hp ⟨h1, hc.symm⟩
      rw [if_neg hq]
      exact ⟨rfl, rfl, fun _ => rfl, fun h => absurd h hp⟩

example : Good [] (.ent [] "foo".toList [(.value "foo_value".toList 5 : Node Nat)]) := by
  simp only [Good, GoodMembers, List.map_cons, List.map_nil, nodeName, childKeys, plainNames,
    List.filterMap_cons, List.filterMap_nil, and_true, Clean]
  repeat' apply And.intro
  all_goals decide
example : (modify counting (store (K := Nat) counting [] (.ent [] "baz".toList bazMembers)).1 "foo".toList
      [.value "foo_value".toList 5] [⟨"foo_id".toList, 2, some "foo".toList⟩]).map (·.map fun e =>
        (String.ofList e.1.table, e.2, cell e "foo_value".toList)) =
    some [("foo", 1, some (.value 42)), ("foo", 2, some (.value 5)), ("bar", 3, none), ("baz", 4, none)] := by decide +kernel

/-- VIOLATION: a primary key under the name of another column is accepted (the name is not checked, update.hpp:37-42):
the row that refers to a row with this key is changed instead. -/
theorem wrong_key_violated :
    let db := (store (V := Nat) (K := Nat) counting [] exBoo).1
    (modify counting db "foo".toList [.value "foo_value".toList 5] [⟨"boo_id".toList, 1, some "foo".toList⟩]).map
      (·.map fun e => (String.ofList e.1.table, e.2, cell e "foo_value".toList)) =
    some [("boo", 1, none), ("foo", 2, some (.value 5)), ("foo", 3, some (.value 221)), ("foo", 4, some (.value 123))] := by
  decide +kernel

/-- The text of an update with several keys, which is not a statement. -/
theorem read_two_keys (text table : Text) (columns : List Text) (k1 k2 : Text) (rest : List Tok) (hne : columns ≠ [])
    (h : tokens text = kw "UPDATE " ++ [.ident table] ++ kw " SET " ++
        sep (kw ",") (columns.map fun c => equation [.ident c]) ++ kw " WHERE " ++
        (equation [.ident k1] ++ (kw "," ++ (equation [.ident k2] ++ rest)))) :
    read text = none := by
  have hw : words [] (tokens text) = .kw "UPDATE".toList :: .name table :: .kw "SET".toList ::
      ws0 (sep (kw ",") (columns.map fun c => equation [.ident c]) ++ (kw " WHERE " ++ ([.ident k1] ++ (kw "=" ++
        ([.hole] ++ (kw "," ++ (equation [.ident k2] ++ rest))))))) := by
    rw [h]
    simp only [equation, List.append_assoc, List.cons_append, List.nil_append]
    exact (words_update _).trans (by rw [words_ident, words_set])
  have h1 : readInsert (words [] (tokens text)) = none := by
    rw [hw]; rfl
  have h2 : readUpdate (words [] (tokens text)) = none := by
    rw [hw, readUpdate, if_pos ⟨rfl, rfl⟩, readSets_sep _ hne _ (by rw [words_where]; nofun), words_where]
    simp only [List.cons_append, List.nil_append]
    rw [words_ident, words_eq', words_hole, words_comma]
    simp
  have h3 : readSelect (words [] (tokens text)) = none := by
    rw [hw, readSelect, if_neg (by decide)]
  rw [read, h1, h2, h3]; rfl

/-- VIOLATION: with several keys the database does not accept the statement, whatever they are. -/
theorem several_keys_violated (fresh : Log V K → Text → K) (db : Log V K) (table : Text) (ms : List (Node V))
    (keys : List (KeyArg K)) (ht : Clean table) (hms : ∀ n ∈ ms.map nodeName, Clean n) (hk : ∀ a ∈ keys, Clean a.name)
    (h : 2 ≤ keys.length) : modify fresh db table ms keys = none := by
  rw [modify]
  cases hu : update table ms keys with
  | none => rfl
  | some u =>
    have hu' : u = (table, valueCols ms, keys.map fun k => (k.name, k.value)) := by
      rw [update] at hu
      split at hu
      · split at hu
        · cases hu
        · exact (Option.some.inj hu).symm
      · cases hu
    subst hu'
    show (updateStmt table (valueCols ms) ((keys.map fun k => (k.name, k.value)).map fun k =>
      (k.1, Col.key k.2))).bind (change fresh db) = none
    rw [List.map_map]
    by_cases hne : valueCols (K := K) ms = []
    · rw [hne]; rfl
    · obtain ⟨a, b, keys, rfl⟩ : ∃ a b l, keys = a :: b :: l := by
        match keys, h with
        | a :: b :: l, _ => exact ⟨a, b, l, rfl⟩
      have hvn : (valueCols (K := K) ms).map (·.1) = plainNames ms := valueCols_names ms
      obtain ⟨text, h1, h2⟩ := update_statement_partial (V := Col V K) table (valueCols ms)
        ((a :: b :: keys).map ((fun k => (k.1, Col.key k.2)) ∘ fun k => (k.name, k.value))) hne (by simp) ht
        (by
          intro c hc
          have : c.1 ∈ plainNames ms := hvn ▸ List.mem_map.2 ⟨c, hc, rfl⟩
          obtain ⟨m, hm, e⟩ := List.mem_filterMap.1 this
          cases m with
          | value n v => cases e; exact hms _ (List.mem_map.2 ⟨_, hm, rfl⟩)
          | ent => cases e
          | rows => cases e)
        (by
          intro c hc
          obtain ⟨x, hx, rfl⟩ := List.mem_map.1 hc
          exact hk x hx)
      rw [h1]
      show change fresh db (text, _) = none
      have hread : read text = none := by
        have hs : ∀ (x y : List Tok) (l : List (List Tok)), ∃ r, sep (kw ",") (x :: y :: l) = x ++ (kw "," ++ (y ++ r)) := by
          intro x y l
          cases l with
          | nil => exact ⟨[], by simp [sep]⟩
          | cons z l => exact ⟨kw "," ++ sep (kw ",") (z :: l), by rw [sep, sep]; simp; nofun; nofun⟩
        obtain ⟨r, hr⟩ := hs (equation [.ident a.name]) (equation [.ident b.name])
          (keys.map ((fun c : Text × Col V K => equation [.ident c.1]) ∘
            ((fun k => (k.1, Col.key k.2)) ∘ fun k : KeyArg K => (k.name, k.value))))
        refine read_two_keys text table ((valueCols (K := K) ms).map (·.1)) a.name b.name (r ++ kw " LIMIT 1;")
          (by simpa using hne) ?_
        rw [h2, List.map_map, List.map_map, List.map_cons, List.map_cons]
        have hr' := congrArg (· ++ kw " LIMIT 1;") hr
        simp only [List.append_assoc, Function.comp_def] at hr' ⊢
        rw [← hr']
      rw [change, hread]

example : (modify (V := Nat) (K := Nat) counting [] "foo".toList [.value "foo_value".toList 5]
    [⟨"foo_id".toList, 1, some "foo".toList⟩, ⟨"boo_id".toList, 1, none⟩]) = none :=
  several_keys_violated _ _ _ _ _ (by unfold Clean; decide) (by unfold Clean; decide) (by unfold Clean; decide) (by decide)

end Nbdl.SqlDb
