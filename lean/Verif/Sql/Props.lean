import Verif.Sql.Spec
/-!
# Properties of the SQL helpers (C49, C50, C67)
-/
namespace Nbdl.Sql
open Spec

/-! ## C50 -/
variable {V K : Type}

theorem valueCols_plain (ms : List (Node V)) : (valueCols ms : List (Text × Col V K)) = plain ms := by
  induction ms with
  | nil => rfl
  | cons m ms ih => cases m <;> simp [valueCols, plain, ih] <;> rfl

theorem plain_keysIn (log : Log V K) (ms : List (Node V)) : KeysIn log (plain ms) := by
  intro n k h
  simp only [plain, List.mem_filterMap] at h
  obtain ⟨m, _, hm⟩ := h
  cases m <;> simp at hm

theorem KeysIn.mono {log new : Log V K} {cols : List (Text × Col V K)} (h : KeysIn log cols) :
    KeysIn (log ++ new) cols := fun n k hk => by
  obtain ⟨r, hr⟩ := h n k hk
  exact ⟨r, by simp [hr]⟩

theorem KeysIn.append {log : Log V K} {a b : List (Text × Col V K)} (ha : KeysIn log a) (hb : KeysIn log b) :
    KeysIn log (a ++ b) := fun n k hk => by
  rcases List.mem_append.1 hk with h | h
  · exact ha n k h
  · exact hb n k h

theorem RefsOk.snoc {log : Log V K} {row : Row V K} {id : K} (h : RefsOk log) (hk : KeysIn log row.cols) :
    RefsOk (log ++ [(row, id)]) := by
  intro i row' id' hi
  by_cases hl : i < log.length
  · rw [List.getElem?_append_left hl] at hi
    rw [List.take_append_of_le_length (by omega)]
    exact h i row' id' hi
  · rw [List.getElem?_append_right (by omega)] at hi
    have : i = log.length := by
      have := (List.getElem?_eq_some_iff.1 hi).1
      simp at this; omega
    subst this
    simp at hi
    obtain ⟨rfl, rfl⟩ := hi
    simpa using hk

mutual
theorem Stored.mono {log log' : Log V K} (hl : ∀ x ∈ log, x ∈ log') (keys : List (Text × Col V K)) (id : K) :
    ∀ e : Node V, Stored log keys id e → Stored log' keys id e
  | .ent _ table ms, h => by
    obtain ⟨ids, h1, h2, h3⟩ := h
    exact ⟨ids, hl _ h1, StoredChildren.mono hl ids ms h2, StoredRows.mono hl table id ms h3⟩
  | .value .., h => h
  | .rows .., h => h
theorem StoredChildren.mono {log log' : Log V K} (hl : ∀ x ∈ log, x ∈ log') (ids : List (Text × Col V K)) :
    ∀ ms : List (Node V), StoredChildren log ids ms → StoredChildren log' ids ms
  | [], h => h
  | .ent name t ms' :: ms, h => by
    obtain ⟨k, rest, h1, h2, h3⟩ := h
    exact ⟨k, rest, h1, Stored.mono hl [] k _ h2, StoredChildren.mono hl rest ms h3⟩
  | .value .. :: ms, h => StoredChildren.mono hl ids ms h
  | .rows .. :: ms, h => StoredChildren.mono hl ids ms h
theorem StoredRows.mono {log log' : Log V K} (hl : ∀ x ∈ log, x ∈ log') (table : Text) (id : K) :
    ∀ ms : List (Node V), StoredRows log table id ms → StoredRows log' table id ms
  | [], h => h
  | .rows _ es :: ms, h => ⟨StoredAll.mono hl table id es h.1, StoredRows.mono hl table id ms h.2⟩
  | .value .. :: ms, h => StoredRows.mono hl table id ms h
  | .ent .. :: ms, h => StoredRows.mono hl table id ms h
theorem StoredAll.mono {log log' : Log V K} (hl : ∀ x ∈ log, x ∈ log') (table : Text) (id : K) :
    ∀ es : List (Node V), StoredAll log table id es → StoredAll log' table id es
  | [], h => h
  | e :: es, h => by
    obtain ⟨⟨k, h1⟩, h2⟩ := h
    exact ⟨⟨k, Stored.mono hl _ k e h1⟩, StoredAll.mono hl table id es h2⟩
end

mutual
/-- The number of rows for the one-to-one members. -/
def sizeChildren : List (Node V) → Nat
  | [] => 0
  | .ent n t ms' :: ms => size (.ent n t ms') + sizeChildren ms
  | .value .. :: ms => sizeChildren ms
  | .rows .. :: ms => sizeChildren ms
def sizeRows : List (Node V) → Nat
  | [] => 0
  | .rows _ es :: ms => sizeAll es + sizeRows ms
  | .value .. :: ms => sizeRows ms
  | .ent .. :: ms => sizeRows ms
end

theorem size_split (ms : List (Node V)) : sizeMembers ms = sizeChildren ms + sizeRows ms := by
  induction ms with
  | nil => rfl
  | cons m ms ih => cases m <;> simp only [sizeMembers, sizeChildren, sizeRows] <;> omega

mutual
theorem insert_ok (db : Log V K → Row V K → K) (keys : List (Text × Col V K)) (log : Log V K)
    (hk : KeysIn log keys) : ∀ e : Node V, Proper e →
    ∃ new id, insert db (fun k => k) keys log e = (log ++ new, some id) ∧ new.length = size e ∧
      Stored (log ++ new) keys id e ∧ (RefsOk log → RefsOk (log ++ new))
  | .ent name table ms, hp => by
    obtain ⟨n1, cs, h1, h2, h3, h4, h5⟩ := insertChildren_ok db log ms hp
    simp only [insert, h1]
    generalize hrow : (⟨table, keys ++ cs ++ valueCols ms⟩ : Row V K) = row
    generalize hid : db (log ++ n1) row = id
    have hin : KeysIn (log ++ n1) row.cols := by
      subst hrow
      exact KeysIn.append (KeysIn.append (KeysIn.mono hk) h4) (valueCols_plain (K := K) ms ▸ plain_keysIn _ _)
    obtain ⟨n2, h6, h7, h8, h9⟩ :=
      insertMulti_ok db table id (log ++ n1 ++ [(row, id)]) ⟨row, by simp⟩ ms hp
    refine ⟨n1 ++ [(row, id)] ++ n2, id, by rw [h6]; simp, ?_, ?_, ?_⟩
    · simp only [List.length_append, List.length_singleton, h2, h7, size, size_split]; omega
    · refine ⟨cs, ?_, ?_, ?_⟩
      · rw [← valueCols_plain, hrow]; simp
      · exact StoredChildren.mono (by simp; grind) cs ms h3
      · have := h8; simpa using this
    · intro h
      have := h9 (RefsOk.snoc (h5 h) hin)
      simpa using this
  | .value .., hp => by simp [Proper] at hp
  | .rows .., hp => by simp [Proper] at hp
theorem insertChildren_ok (db : Log V K → Row V K → K) (log : Log V K) :
    ∀ ms : List (Node V), ProperMembers ms →
    ∃ new cs, insertChildren db (fun k => k) log ms = (log ++ new, cs) ∧ new.length = sizeChildren ms ∧
      StoredChildren (log ++ new) cs ms ∧ KeysIn (log ++ new) cs ∧ (RefsOk log → RefsOk (log ++ new))
  | [], _ => ⟨[], [], by simp [insertChildren], rfl, rfl, by intro n k h; simp at h, by simp⟩
  | .ent name t ms' :: ms, hp => by
    obtain ⟨n1, id, h1, h2, h3, h4⟩ := insert_ok db [] log (by intro n k h; simp at h) (.ent name t ms') hp.1
    obtain ⟨n2, cs, g1, g2, g3, g4, g5⟩ := insertChildren_ok db (log ++ n1) ms hp.2
    simp only [insertChildren, h1, g1]
    refine ⟨n1 ++ n2, (keyName name, .key id) :: cs, by simp, by simp [sizeChildren, h2, g2], ?_, ?_, ?_⟩
    · refine ⟨id, cs, rfl, ?_, by simpa using g3⟩
      exact Stored.mono (by simp; grind) _ _ _ h3
    · intro n k hk
      rcases List.mem_cons.1 hk with h | h
      · simp only [Prod.mk.injEq, Col.key.injEq] at h
        obtain ⟨rfl, rfl⟩ := h
        obtain ⟨_, h, _⟩ := h3
        exact ⟨_, by rw [← List.append_assoc]; exact List.mem_append_left _ h⟩
      · obtain ⟨r, hr⟩ := g4 n k h
        exact ⟨r, by simpa using hr⟩
    · intro h
      simpa using g5 (h4 h)
  | .value .. :: ms, hp => by
    obtain ⟨new, cs, h⟩ := insertChildren_ok db log ms hp
    exact ⟨new, cs, h⟩
  | .rows .. :: ms, hp => by
    obtain ⟨new, cs, h⟩ := insertChildren_ok db log ms hp.2
    exact ⟨new, cs, h⟩
theorem insertMulti_ok (db : Log V K → Row V K → K) (table : Text) (id : K) (log : Log V K)
    (hid : ∃ r, (r, id) ∈ log) : ∀ ms : List (Node V), ProperMembers ms →
    ∃ new, insertMulti db (fun k => k) table id log ms = log ++ new ∧ new.length = sizeRows ms ∧
      StoredRows (log ++ new) table id ms ∧ (RefsOk log → RefsOk (log ++ new))
  | [], _ => ⟨[], by simp [insertMulti], rfl, trivial, by simp⟩
  | .rows _ es :: ms, hp => by
    obtain ⟨n1, h1, h2, h3, h4⟩ := insertRows_ok db table id log hid es hp.1
    obtain ⟨n2, g1, g2, g3, g4⟩ := insertMulti_ok db table id (log ++ n1)
      (by obtain ⟨r, hr⟩ := hid; exact ⟨r, by simp [hr]⟩) ms hp.2
    refine ⟨n1 ++ n2, by simp [insertMulti, h1, g1], by simp [sizeRows, h2, g2], ⟨?_, by simpa using g3⟩, ?_⟩
    · exact StoredAll.mono (by simp; grind) _ _ _ h3
    · intro h; simpa using g4 (h4 h)
  | .value .. :: ms, hp => by
    obtain ⟨new, h⟩ := insertMulti_ok db table id log hid ms hp
    exact ⟨new, h⟩
  | .ent .. :: ms, hp => by
    obtain ⟨new, h⟩ := insertMulti_ok db table id log hid ms hp.2
    exact ⟨new, h⟩
theorem insertRows_ok (db : Log V K → Row V K → K) (table : Text) (id : K) (log : Log V K)
    (hid : ∃ r, (r, id) ∈ log) : ∀ es : List (Node V), ProperAll es →
    ∃ new, insertRows db (fun k => k) table id log es = log ++ new ∧ new.length = sizeAll es ∧
      StoredAll (log ++ new) table id es ∧ (RefsOk log → RefsOk (log ++ new))
  | [], _ => ⟨[], by simp [insertRows], rfl, trivial, by simp⟩
  | e :: es, hp => by
    obtain ⟨n1, k, h1, h2, h3, h4⟩ := insert_ok db [(keyName table, .key id)] log (by
      intro n k h
      simp only [List.mem_singleton, Prod.mk.injEq, Col.key.injEq] at h
      rw [h.2]; exact hid) e hp.1
    obtain ⟨n2, g1, g2, g3, g4⟩ := insertRows_ok db table id (log ++ n1)
      (by obtain ⟨r, hr⟩ := hid; exact ⟨r, by simp [hr]⟩) es hp.2
    refine ⟨n1 ++ n2, by simp [insertRows, h1, g1], by simp [sizeAll, h2, g2], ⟨⟨k, ?_⟩, by simpa using g3⟩, ?_⟩
    · exact Stored.mono (by simp; grind) _ _ _ h3
    · intro h; simpa using g4 (h4 h)
end

/-- Inserting an entity of any depth adds one row for each of its entities, after which it is stored: every
child and every element of a container has its row, with the right ids.  Every new row refers to rows inserted
before it: children come before their parent and elements of containers after it.
Partial: for keys that survive being moved from, such as numbers. -/
theorem insert_entity_partial (db : Log V K → Row V K → K) (keys : List (Text × Col V K)) (log : Log V K)
    (e : Node V) (hp : Proper e) (hk : KeysIn log keys) (hr : RefsOk log) :
    ∃ new id, insert db (fun k => k) keys log e = (log ++ new, some id) ∧ new.length = size e ∧
      Stored (log ++ new) keys id e ∧ RefsOk (log ++ new) := by
  obtain ⟨new, id, h1, h2, h3, h4⟩ := insert_ok db keys log hk e hp
  exact ⟨new, id, h1, h2, h3, h4 hr⟩

/-- The entities of test/nbdl/sql_db/insert.cpp. -/
def exFoo (name : String) (n : Nat) : Node Nat := .ent name.toList "foo".toList [.value "foo_value".toList n]
def exBaz : Node Nat :=
  .ent [] "baz".toList [.value "baz_value".toList 7, exFoo "baz_foo" 42,
    .ent "baz_bar".toList "bar".toList [.value "bar_value".toList 5, exFoo "bar_foo" 82]]
def exBoo : Node Nat :=
  .ent [] "boo".toList [.rows "foo_list".toList [exFoo "" 101, exFoo "" 221, exFoo "" 123]]
/-- Ids count up from 1. -/
def exDb : Log Nat Nat → Row Nat Nat → Nat := fun log _ => log.length + 1

example : Proper exBaz ∧ Proper exBoo := by
  simp [exBaz, exBoo, exFoo, Proper, ProperMembers, ProperAll]
example : KeysIn ([] : Log Nat Nat) [] ∧ RefsOk ([] : Log Nat Nat) := by simp [KeysIn, RefsOk]
example : (insert exDb (fun k => k) [] [] exBaz).1.map (fun r => (String.ofList r.1.table, r.2)) =
    [("foo", 1), ("foo", 2), ("bar", 3), ("baz", 4)] := by decide
example : ((insert exDb (fun k => k) [] [] exBaz).1.map (·.1.cols))[3]? =
    some [("baz_foo_id".toList, .key 1), ("baz_bar_id".toList, .key 3), ("baz_value".toList, .value 7)] := by
  decide

/-- VIOLATION: the foreign key is moved from for every element of a container.  If moving changes a key, as it
does for strings, only the first element refers to its parent: the other rows have the key that is left over. -/
theorem moved_key_violated :
    ((insert (K := List Char) (fun log _ => ['k', Char.ofNat (48 + log.length)]) (fun _ => []) [] [] exBoo).1.map
      fun r => (String.ofList r.1.table, r.1.cols.map (·.2))) =
    [("boo", []), ("foo", [.key ['k', '0'], .value 101]), ("foo", [.key [], .value 221]),
      ("foo", [.key [], .value 123])] := by
  decide

/-! ## C49 -/

theorem lex_name (t rest : Text) (h : Clean t) (a : Text) :
    lex (some a) (t ++ '"' :: rest) = .ident (a ++ t) :: lex none rest := by
  induction t generalizing a with
  | nil => simp [lex]
  | cons c t ih =>
    have hc : c ≠ '"' := fun e => h (by simp [e])
    have := ih (fun e => h (by simp [e])) (a ++ [c])
    simp only [List.cons_append, lex, if_neg hc, this]
    simp

theorem lex_quote (t rest : Text) (h : Clean t) : lex none (quote t ++ rest) = .ident t :: lex none rest := by
  simp only [quote, List.cons_append, List.append_assoc, lex, if_pos]
  rw [List.nil_append, lex_name t rest h]; simp

theorem lex_plain (t rest : Text) (h : ∀ c ∈ t, c ≠ '"' ∧ c ≠ '?') :
    lex none (t ++ rest) = t.map .char ++ lex none rest := by
  induction t with
  | nil => rfl
  | cons c t ih =>
    have hc := h c (by simp)
    simp only [List.cons_append, lex, if_neg hc.1, if_neg hc.2, List.map_cons]
    rw [ih fun x hx => h x (by simp [hx])]

/-- The names, quoted and separated by commas. -/
theorem columnNameList_lex (ns : List Text) (hne : ns ≠ []) (hc : ∀ n ∈ ns, Clean n) (rest : Text) :
    ∃ t, columnNameList ns = some t ∧
      lex none (t ++ rest) = sep (kw ",") (ns.map fun n => [.ident n]) ++ lex none rest := by
  cases ns with
  | nil => exact absurd rfl hne
  | cons n ns =>
    refine ⟨_, rfl, ?_⟩
    clear hne
    induction ns generalizing n with
    | nil =>
      have := lex_quote n rest (hc n (by simp))
      simpa [quote, sep] using this
    | cons m ns ih =>
      have h1 := lex_quote n (',' :: ('"' :: (m ++ (ns.flatMap (fun m => "\",\"".toList ++ m) ++ ('"' :: rest)))))
        (hc n (by simp))
      have h2 := ih m fun x hx => hc x (by simp at hx ⊢; grind)
      simp only [String.reduceToList, List.cons_append, List.nil_append, List.append_assoc, quote,
        List.flatMap_cons] at h1 h2 ⊢
      rw [h1, lex, if_neg (by decide), if_neg (by decide), h2]
      simp [sep, kw]

theorem columnValueList_lex (ns : List Text) (hne : ns ≠ []) (hc : ∀ n ∈ ns, Clean n) (rest : Text) :
    ∃ t, columnValueList ns = some t ∧
      lex none (t ++ rest) = sep (kw ",") (ns.map fun n => equation [.ident n]) ++ lex none rest := by
  cases ns with
  | nil => exact absurd rfl hne
  | cons n ns =>
    refine ⟨_, rfl, ?_⟩
    clear hne
    induction ns generalizing n with
    | nil =>
      have := lex_quote n ('=' :: '?' :: rest) (hc n (by simp))
      simp only [String.reduceToList, List.cons_append, List.nil_append, List.append_assoc, quote,
        List.flatMap_nil] at this ⊢
      rw [this]
      simp [sep, equation, kw, lex]
    | cons m ns ih =>
      have h1 := lex_quote n ('=' :: '?' :: ',' ::
        ('"' :: (m ++ (ns.flatMap (fun m => "\"=?,\"".toList ++ m) ++ ('"' :: '=' :: '?' :: rest)))))
        (hc n (by simp))
      have h2 := ih m fun x hx => hc x (by simp at hx ⊢; grind)
      simp only [String.reduceToList, List.cons_append, List.nil_append, List.append_assoc, quote,
        List.flatMap_cons] at h1 h2 ⊢
      rw [h1, lex, if_neg (by decide), if_neg (by decide), lex, if_neg (by decide), if_pos rfl,
        lex, if_neg (by decide), if_neg (by decide), h2]
      simp [sep, kw, equation]

theorem placeholderList_lex (n : Nat) (hn : 0 < n) (rest : Text) :
    lex none (placeholderList n ++ rest) = sep (kw ",") (List.replicate n [.hole]) ++ lex none rest := by
  obtain ⟨n, rfl⟩ : ∃ m, n = m + 1 := ⟨n - 1, by omega⟩
  simp only [placeholderList, Nat.add_sub_cancel, String.reduceToList]
  induction n with
  | zero => simp [lex, sep]
  | succ n ih =>
    have := ih (by omega)
    simp only [List.replicate_succ, List.flatten_cons, List.cons_append, List.nil_append] at this ⊢
    rw [lex, if_neg (by decide), if_pos rfl] at this ⊢
    rw [lex, if_neg (by decide), if_neg (by decide), lex, if_neg (by decide), if_pos rfl, this]
    simp [sep, kw]

/-- The insert statement for any columns: it names the table and all the columns in order and has one
placeholder for each, and the values are bound in that order. -/
theorem insert_statement (table : Text) (columns : List (Text × V)) (hne : columns ≠ []) (ht : Clean table)
    (hc : ∀ c ∈ columns, Clean c.1) :
    ∃ text, insertStmt table columns = some (text, columns.map (·.2)) ∧
      tokens text = kw "INSERT INTO " ++ [.ident table] ++ kw " (" ++
        sep (kw ",") (columns.map fun c => [.ident c.1]) ++ kw ") VALUES (" ++
        sep (kw ",") (columns.map fun _ => [.hole]) ++ kw ");" := by
  have hnames : ∀ n ∈ columns.map (·.1), Clean n := by
    intro n hn
    obtain ⟨c, h1, rfl⟩ := List.mem_map.1 hn
    exact hc c h1
  obtain ⟨names, h1, -⟩ := columnNameList_lex (columns.map (·.1)) (by simpa using hne) hnames []
  refine ⟨_, by rw [insertStmt, h1]; rfl, ?_⟩
  obtain ⟨names', h2, h3⟩ := columnNameList_lex (columns.map (·.1)) (by simpa using hne) hnames
    (") VALUES (".toList ++ (placeholderList columns.length ++ ");".toList))
  obtain rfl : names = names' := by rw [h1] at h2; simpa using h2
  have h4 := lex_quote table (" (".toList ++ (names ++ (") VALUES (".toList ++
    (placeholderList columns.length ++ ");".toList)))) ht
  have h0 : 0 < columns.length := List.length_pos_iff.2 hne
  have h5 := placeholderList_lex columns.length h0 (");".toList)
  rw [tokens]
  have e : "INSERT INTO \"".toList ++ table ++ "\" (".toList ++ names ++ ") VALUES (".toList
      ++ placeholderList columns.length ++ ");".toList =
      "INSERT INTO ".toList ++ (quote table ++ (" (".toList ++ (names ++ (") VALUES (".toList ++
    (placeholderList columns.length ++ ");".toList))))) := by
    simp [quote]
  rw [e, lex_plain _ _ (by decide), h4, lex_plain _ _ (by decide), h3, lex_plain _ _ (by decide), h5]
  have e2 : lex none (");".toList) = kw ");" := by decide
  have e3 : (columns.map fun _ => [Tok.hole]) = List.replicate columns.length [.hole] := by
    rw [List.map_const']
  rw [e2, e3]
  simp [kw, Function.comp_def]

/-- The update statement: the columns and then the keys, each with a placeholder; the values are bound in that
order.  Partial: the keys are separated by commas; see `criteria_not_conjunction_violated`. -/
theorem update_statement_partial (table : Text) (columns keys : List (Text × V)) (hne : columns ≠ [])
    (hnk : keys ≠ []) (ht : Clean table) (hc : ∀ c ∈ columns, Clean c.1) (hk : ∀ c ∈ keys, Clean c.1) :
    ∃ text, updateStmt table columns keys = some (text, columns.map (·.2) ++ keys.map (·.2)) ∧
      tokens text = kw "UPDATE " ++ [.ident table] ++ kw " SET " ++
        sep (kw ",") (columns.map fun c => equation [.ident c.1]) ++ kw " WHERE " ++
        sep (kw ",") (keys.map fun c => equation [.ident c.1]) ++ kw " LIMIT 1;" := by
  have hnames (l : List (Text × V)) (h : ∀ c ∈ l, Clean c.1) : ∀ n ∈ l.map (·.1), Clean n := by
    intro n hn
    obtain ⟨c, h1, rfl⟩ := List.mem_map.1 hn
    exact h c h1
  obtain ⟨ks, h1, h2⟩ := columnValueList_lex (keys.map (·.1)) (by simpa using hnk) (hnames keys hk)
    (" LIMIT 1;".toList)
  obtain ⟨cs, h3, h4⟩ := columnValueList_lex (columns.map (·.1)) (by simpa using hne) (hnames columns hc)
    (" WHERE ".toList ++ (ks ++ " LIMIT 1;".toList))
  refine ⟨_, by rw [updateStmt, h1, h3]; rfl, ?_⟩
  have e : "UPDATE \"".toList ++ table ++ "\" SET ".toList ++ cs ++ " WHERE ".toList ++ ks ++ " LIMIT 1;".toList =
      "UPDATE ".toList ++ (quote table ++ (" SET ".toList ++ (cs ++ (" WHERE ".toList ++ (ks ++
        " LIMIT 1;".toList))))) := by
    simp [quote]
  rw [e, tokens, lex_plain _ _ (by decide), lex_quote _ _ ht, lex_plain _ _ (by decide), h4,
    lex_plain _ _ (by decide), h2]
  have e2 : lex none (" LIMIT 1;".toList) = kw " LIMIT 1;" := by decide
  rw [e2]
  simp [kw, List.map_map, Function.comp_def]

/-- The columns of a select are given as texts such as `"bar"."bar_id"`. -/
def IsColumn (t : Text) (toks : List Tok) : Prop := ∀ rest, lex none (t ++ rest) = toks ++ lex none rest

theorem qualified_isColumn (a n : Text) (ha : Clean a) (hn : Clean n) :
    IsColumn (qualified a n) [.ident a, .char '.', .ident n] := by
  intro rest
  rw [qualified, List.append_assoc, lex_quote _ _ ha, List.cons_append, lex, if_neg (by decide),
    if_neg (by decide), lex_quote _ _ hn]
  rfl

theorem criteriaList_lex (ks : List (Text × List Tok)) (hne : ks ≠ []) (hc : ∀ k ∈ ks, IsColumn k.1 k.2)
    (rest : Text) :
    ∃ t, criteriaList (ks.map (·.1)) = some t ∧
      lex none (t ++ rest) = sep (kw ",") (ks.map fun k => equation k.2) ++ lex none rest := by
  cases ks with
  | nil => exact absurd rfl hne
  | cons k ks =>
    refine ⟨_, rfl, ?_⟩
    clear hne
    induction ks generalizing k with
    | nil =>
      simp only [List.map_nil, List.flatMap_nil, List.append_nil, String.reduceToList, List.append_assoc]
      rw [hc k (by simp)]
      simp [lex, sep, equation, kw]
    | cons m ks ih =>
      have h2 := ih m fun x hx => hc x (by simp at hx ⊢; grind)
      simp only [String.reduceToList, List.cons_append, List.nil_append, List.append_assoc,
        List.map_cons, List.flatMap_cons] at h2 ⊢
      rw [hc k (by simp), lex, if_neg (by decide), if_neg (by decide), lex, if_neg (by decide), if_pos rfl,
        lex, if_neg (by decide), if_neg (by decide), h2]
      simp [sep, kw, equation]

/-- The select statement: one placeholder for each key, with the values bound in that order.
Partial: the keys are separated by commas; see `criteria_not_conjunction_violated`. -/
theorem select_statement_partial (table columns joins : Text) (tc tj : List Tok) (keys : List (Text × V))
    (ts : List (List Tok)) (hne : keys ≠ []) (ht : Clean table) (hcol : IsColumn columns tc)
    (hj : IsColumn joins tj) (hl : ts.length = keys.length)
    (hk : ∀ p ∈ (keys.map (·.1)).zip ts, IsColumn p.1 p.2) :
    ∃ text, selectStmt table columns joins keys = some (text, keys.map (·.2)) ∧
      tokens text = kw "SELECT " ++ tc ++ kw " FROM " ++ [.ident table] ++ tj ++ kw " WHERE " ++
        sep (kw ",") (ts.map equation) ++ kw ";" := by
  have hz1 : ((keys.map (·.1)).zip ts).map (·.1) = keys.map (·.1) := List.map_fst_zip (by simp [hl])
  have hz2 : ((keys.map (·.1)).zip ts).map (·.2) = ts := List.map_snd_zip (by simp [hl])
  obtain ⟨c, h1, h2⟩ := criteriaList_lex ((keys.map (·.1)).zip ts) (by
    intro e
    have := congrArg List.length e
    simp [hl] at this
    exact hne this) hk ";".toList
  rw [hz1] at h1
  refine ⟨_, by rw [selectStmt, h1]; rfl, ?_⟩
  simp only [List.append_assoc]
  rw [tokens, lex_plain _ _ (by decide), hcol, lex_plain _ _ (by decide), lex_quote _ _ ht, hj,
    lex_plain _ _ (by decide), h2]
  have e2 : lex none (";".toList) = kw ";" := by decide
  have e3 : (((keys.map (·.1)).zip ts).map fun k => equation k.2) = ts.map equation := by
    conv => rhs; rw [← hz2]
    simp
  rw [e2, e3]
  simp [kw]

/-- The number of placeholders, whatever the separator. -/
theorem holes_sep (d : String) (cols : List (List Tok)) (h : ∀ c ∈ cols, holes c = 1) :
    holes (sep (kw d) cols) = cols.length := by
  have hd : holes (kw d) = 0 := by
    simp only [holes, kw, List.count_eq_zero, List.mem_map, not_exists]
    rintro c ⟨_, h⟩; cases h
  induction cols with
  | nil => rfl
  | cons c cols ih =>
    have hc := h c (by simp)
    have ih := ih fun x hx => h x (by simp [hx])
    cases cols with
    | nil => simpa [sep] using hc
    | cons b cols =>
      simp only [sep, holes, List.count_append] at *
      simp only [List.length_cons] at *
      omega

/-- VIOLATION: with two or more keys the condition of select and update statements is not the conjunction of
the equations for the keys (nor of any other equations for quoted columns). -/
theorem criteria_not_conjunction_violated (keys : List (List Tok)) (h2 : 2 ≤ keys.length)
    (others : List (List Tok)) (ho : ∀ c ∈ others, ∀ t ∈ c, t ≠ .char ',') :
    sep (kw ",") (keys.map equation) ≠ conjunction others := by
  intro e
  have h1 : Tok.char ',' ∈ sep (kw ",") (keys.map equation) := by
    match keys, h2 with
    | a :: b :: ks, _ => simp [sep, kw]
  rw [e, conjunction] at h1
  clear e
  induction others with
  | nil => simp [sep] at h1
  | cons c cs ih =>
    have hc : Tok.char ',' ∉ equation c := by
      simp only [equation, kw, List.mem_append, List.mem_map, List.mem_singleton, not_or]
      exact ⟨⟨fun hm => ho c (by simp) _ hm rfl, by decide⟩, by decide⟩
    cases cs with
    | nil => simp only [List.map_cons, List.map_nil, sep] at h1; exact hc h1
    | cons b cs =>
      simp only [List.map_cons, sep, List.mem_append] at h1
      rcases h1 with (h1 | h1) | h1
      · exact hc h1
      · revert h1; decide
      · exact ih (fun x hx => ho x (by simp [hx])) h1

example : updateStmt "my_table".toList [("foo".toList, 42), ("bar".toList, 1)] [("my_table_id".toList, 5)] =
    some ("UPDATE \"my_table\" SET \"foo\"=?,\"bar\"=? WHERE \"my_table_id\"=? LIMIT 1;".toList, [42, 1, 5]) := by
  decide
example : insertStmt "my_table".toList [("foo".toList, 42), ("bar".toList, 1)] =
    some ("INSERT INTO \"my_table\" (\"foo\",\"bar\") VALUES (?,?);".toList, [42, 1]) := by
  decide
/-- Two keys. -/
example : (updateStmt "t".toList [("a".toList, 42)] [("b".toList, 5), ("c".toList, 6)]).map (·.1) =
    some "UPDATE \"t\" SET \"a\"=? WHERE \"b\"=?,\"c\"=? LIMIT 1;".toList := by
  decide
example : Clean "my_table".toList := by simp [Clean]

/-! ## C67: queries over nested entities -/

theorem aliasPath_snoc (table : Text) (path : List Text) (n : Text) :
    aliasPath table (path ++ [n]) = joinAlias (aliasPath table path) n := by
  simp [aliasPath, joinAlias]

theorem mem_aliasLevel (pre : Text) (ms : List Ty) (a : Alias) :
    a ∈ aliasLevel pre ms ↔ ∃ ms', .ent a.member a.table ms' ∈ ms ∧ a.alias = joinAlias pre a.member ∧
      a.parent = pre := by
  induction ms with
  | nil => simp [aliasLevel]
  | cons m ms ih =>
    cases m with
    | value n => simp [aliasLevel, ih]
    | rows n => simp [aliasLevel, ih]
    | ent n t ms' =>
      simp only [aliasLevel, List.mem_cons, ih, Ty.ent.injEq]
      constructor
      · rintro (rfl | ⟨x, h1, h2⟩)
        · exact ⟨ms', .inl ⟨rfl, rfl, rfl⟩, rfl, rfl⟩
        · exact ⟨x, .inr h1, h2⟩
      · rintro ⟨x, ⟨h1, h2, h3⟩ | h1, h4, h5⟩
        · exact .inl (by cases a; simp_all)
        · exact .inr ⟨x, h1, h4, h5⟩

theorem aliasOf_sub (pre : Text) (m : Ty) (ms : List Ty) (hm : m ∈ ms) (a : Alias) (ha : a ∈ aliasOf pre m) :
    a ∈ aliasRec pre ms := by
  induction ms with
  | nil => simp at hm
  | cons x ms ih =>
    rw [aliasRec, List.mem_append]
    rcases List.mem_cons.1 hm with rfl | hm
    · exact .inl ha
    · exact .inr (ih hm)

theorem aliases_complete (table : Text) (members : List Ty) (path : List Text) (t : Text) (ms : List Ty)
    (h : EntAt table members path t ms) (a : Alias)
    (ha : a ∈ aliasLevel (aliasPath table path) ms ++ aliasRec (aliasPath table path) ms) :
    a ∈ tableAliases table members := by
  induction h with
  | root => exact ha
  | child h hm ih =>
    refine ih (List.mem_append_right _ ?_)
    refine aliasOf_sub _ _ _ hm _ ?_
    rw [aliasPath_snoc] at ha
    exact ha

mutual
theorem aliasOf_sound (table : Text) (members : List Ty) (path : List Text) (t : Text) (ms : List Ty)
    (h : EntAt table members path t ms) (a : Alias) :
    ∀ m ∈ ms, a ∈ aliasOf (aliasPath table path) m → Needed table members a
  | .value n, _, ha => by simp [aliasOf] at ha
  | .rows n, _, ha => by simp [aliasOf] at ha
  | .ent n t' ms', hm, ha => by
    rw [aliasOf, ← aliasPath_snoc] at ha
    rcases List.mem_append.1 ha with ha | ha
    · obtain ⟨x, h1, h2, h3⟩ := (mem_aliasLevel ..).1 ha
      exact ⟨_, _, _, x, .child h hm, h1, by rw [h2, aliasPath_snoc _ (path ++ [n])], h3⟩
    · exact aliasRec_sound table members _ _ ms' (.child h hm) a ms' (fun _ h => h) ha
theorem aliasRec_sound (table : Text) (members : List Ty) (path : List Text) (t : Text) (ms : List Ty)
    (h : EntAt table members path t ms) (a : Alias) :
    ∀ l : List Ty, (∀ m ∈ l, m ∈ ms) → a ∈ aliasRec (aliasPath table path) l → Needed table members a
  | [], _, ha => by simp [aliasRec] at ha
  | m :: l, hl, ha => by
    rw [aliasRec] at ha
    rcases List.mem_append.1 ha with ha | ha
    · exact aliasOf_sound table members path t ms h a m (hl m (by simp)) ha
    · exact aliasRec_sound table members path t ms h a l (fun x hx => hl x (by simp [hx])) ha
end

/-- The joins of a query are exactly the needed ones. -/
theorem joins_exact (table : Text) (members : List Ty) (a : Alias) :
    a ∈ tableAliases table members ↔ Needed table members a := by
  constructor
  · intro ha
    rcases List.mem_append.1 ha with ha | ha
    · obtain ⟨x, h1, h2, h3⟩ := (mem_aliasLevel ..).1 ha
      exact ⟨[], _, _, x, .root, h1, by rw [h2, aliasPath_snoc]; rfl, h3⟩
    · exact aliasRec_sound table members [] table members .root a members (fun _ h => h) ha
  · rintro ⟨path, t, ms, ms', h, hm, h1, h2⟩
    refine aliases_complete table members path t ms h a (List.mem_append_left _ ?_)
    exact (mem_aliasLevel ..).2 ⟨ms', hm, by rw [h1, aliasPath_snoc], h2⟩

theorem mem_valueColumns (alias : Text) (ms : List Ty) (c : Text × Text) :
    c ∈ valueColumns alias ms ↔ c.1 = alias ∧ .value c.2 ∈ ms := by
  induction ms with
  | nil => simp [valueColumns]
  | cons m ms ih =>
    cases m with
    | rows n => simp [valueColumns, ih]
    | ent n t ms' => simp [valueColumns, ih]
    | value n =>
      simp only [valueColumns, List.mem_cons, ih, Prod.ext_iff, Ty.value.injEq]
      grind

theorem mem_columnLevel (pre : Text) (ms : List Ty) (c : Text × Text) :
    c ∈ columnLevel pre ms ↔ ∃ n t ms', .ent n t ms' ∈ ms ∧ c.1 = joinAlias pre n ∧ .value c.2 ∈ ms' := by
  induction ms with
  | nil => simp [columnLevel]
  | cons m ms ih =>
    cases m with
    | value n => simp [columnLevel, ih]
    | rows n => simp [columnLevel, ih]
    | ent n t ms' =>
      simp only [columnLevel, List.mem_append, List.mem_cons, ih, Ty.ent.injEq, mem_valueColumns]
      constructor
      · rintro (h | ⟨x, y, z, h1, h2⟩)
        · exact ⟨n, t, ms', .inl ⟨rfl, rfl, rfl⟩, h⟩
        · exact ⟨x, y, z, .inr h1, h2⟩
      · rintro ⟨x, y, z, ⟨rfl, rfl, rfl⟩ | h1, h2⟩
        · exact .inl h2
        · exact .inr ⟨x, y, z, h1, h2⟩

theorem columnsOf_sub (pre : Text) (m : Ty) (ms : List Ty) (hm : m ∈ ms) (c : Text × Text)
    (hc : c ∈ columnsOf pre m) : c ∈ columnsRec pre ms := by
  induction ms with
  | nil => simp at hm
  | cons x ms ih =>
    rw [columnsRec, List.mem_append]
    rcases List.mem_cons.1 hm with rfl | hm
    · exact .inl hc
    · exact .inr (ih hm)

theorem columns_complete (table : Text) (members : List Ty) (path : List Text) (t : Text) (ms : List Ty)
    (h : EntAt table members path t ms) (c : Text × Text)
    (hc : c ∈ columnLevel (aliasPath table path) ms ++ columnsRec (aliasPath table path) ms) :
    c ∈ aliasedColumns table members := by
  induction h with
  | root => exact List.mem_append_right _ hc
  | child h hm ih =>
    refine ih (List.mem_append_right _ ?_)
    refine columnsOf_sub _ _ _ hm _ ?_
    rw [aliasPath_snoc] at hc
    exact hc

mutual
theorem columnsOf_sound (table : Text) (members : List Ty) (path : List Text) (t : Text) (ms : List Ty)
    (h : EntAt table members path t ms) (c : Text × Text) :
    ∀ m ∈ ms, c ∈ columnsOf (aliasPath table path) m →
      ∃ path t ms, EntAt table members path t ms ∧ c.1 = aliasPath table path ∧ .value c.2 ∈ ms
  | .value n, _, hc => by simp [columnsOf] at hc
  | .rows n, _, hc => by simp [columnsOf] at hc
  | .ent n t' ms', hm, hc => by
    rw [columnsOf, ← aliasPath_snoc] at hc
    rcases List.mem_append.1 hc with hc | hc
    · obtain ⟨x, y, z, h1, h2, h3⟩ := (mem_columnLevel ..).1 hc
      exact ⟨_, _, z, .child (.child h hm) h1, by rw [h2, ← aliasPath_snoc], h3⟩
    · exact columnsRec_sound table members _ _ ms' (.child h hm) c ms' (fun _ h => h) hc
theorem columnsRec_sound (table : Text) (members : List Ty) (path : List Text) (t : Text) (ms : List Ty)
    (h : EntAt table members path t ms) (c : Text × Text) :
    ∀ l : List Ty, (∀ m ∈ l, m ∈ ms) → c ∈ columnsRec (aliasPath table path) l →
      ∃ path t ms, EntAt table members path t ms ∧ c.1 = aliasPath table path ∧ .value c.2 ∈ ms
  | [], _, hc => by simp [columnsRec] at hc
  | m :: l, hl, hc => by
    rw [columnsRec] at hc
    rcases List.mem_append.1 hc with hc | hc
    · exact columnsOf_sound table members path t ms h c m (hl m (by simp)) hc
    · exact columnsRec_sound table members path t ms h c l (fun x hx => hl x (by simp [hx])) hc
end

/-- The columns of a query are exactly the plain members of the entity and of all nested entities, each under
the alias of the path. -/
theorem columns_exact (table : Text) (members : List Ty) (c : Text × Text) :
    c ∈ aliasedColumns table members ↔
      ∃ path t ms, EntAt table members path t ms ∧ c.1 = aliasPath table path ∧ .value c.2 ∈ ms := by
  constructor
  · intro hc
    rcases List.mem_append.1 hc with hc | hc
    · obtain ⟨h1, h2⟩ := (mem_valueColumns ..).1 hc
      exact ⟨[], _, _, .root, h1, h2⟩
    · rcases List.mem_append.1 hc with hc | hc
      · obtain ⟨x, y, z, h1, h2, h3⟩ := (mem_columnLevel ..).1 hc
        exact ⟨_, _, z, .child .root h1, by rw [h2, aliasPath_snoc]; rfl, h3⟩
      · exact columnsRec_sound table members [] table members .root c members (fun _ h => h) hc
  · rintro ⟨path, t, ms, h, h1, h2⟩
    cases h with
    | root => exact List.mem_append_left _ ((mem_valueColumns ..).2 ⟨h1, h2⟩)
    | child h hm =>
      refine columns_complete table members _ _ _ h c (List.mem_append_left _ ?_)
      exact (mem_columnLevel ..).2 ⟨_, _, _, hm, by rw [h1, aliasPath_snoc], h2⟩

theorem Introduced.mono {l : List Alias} : ∀ {k k' : List Text}, (∀ x ∈ k, x ∈ k') → Introduced k l →
    Introduced k' l := by
  induction l with
  | nil => intros; trivial
  | cons a l ih =>
    intro k k' hk h
    exact ⟨hk _ h.1, ih (by simp; grind) h.2⟩

theorem introduced_append {l r : List Alias} : ∀ {k : List Text}, Introduced k l →
    Introduced (l.map (·.alias) ++ k) r → Introduced k (l ++ r) := by
  induction l with
  | nil => intro k _ h; exact h
  | cons a l ih =>
    intro k h h2
    exact ⟨h.1, ih h.2 (Introduced.mono (by simp; grind) h2)⟩

theorem aliasLevel_introduced (pre : Text) (ms : List Ty) : ∀ {k : List Text}, pre ∈ k →
    Introduced k (aliasLevel pre ms) := by
  induction ms with
  | nil => intros; trivial
  | cons m ms ih =>
    intro k hk
    cases m with
    | value n => exact ih hk
    | rows n => exact ih hk
    | ent n t ms' => exact ⟨hk, ih (by simp [hk])⟩

mutual
theorem aliasOf_introduced (pre : Text) (k : List Text) : ∀ m : Ty,
    (∀ n t ms', m = .ent n t ms' → joinAlias pre n ∈ k) → Introduced k (aliasOf pre m)
  | .value n, _ => trivial
  | .rows n, _ => trivial
  | .ent n t ms, h => by
    rw [aliasOf]
    refine introduced_append (aliasLevel_introduced _ _ (h n t ms rfl)) ?_
    refine aliasRec_introduced _ _ ms fun n' t' ms' hm => ?_
    refine List.mem_append_left _ (List.mem_map.2 ⟨⟨n', t', _, _⟩, (mem_aliasLevel ..).2 ⟨ms', hm, rfl, rfl⟩, rfl⟩)
theorem aliasRec_introduced (pre : Text) (k : List Text) : ∀ ms : List Ty,
    (∀ n t ms', .ent n t ms' ∈ ms → joinAlias pre n ∈ k) → Introduced k (aliasRec pre ms)
  | [], _ => trivial
  | m :: ms, h => by
    rw [aliasRec]
    refine introduced_append (aliasOf_introduced pre k m fun n t ms' e => h n t ms' (by simp [e])) ?_
    exact aliasRec_introduced pre _ ms fun n t ms' e => List.mem_append_right _ (h n t ms' (by simp [e]))
end

/-- Every join refers to the table of the query or to one joined before it. -/
theorem joins_introduced (table : Text) (members : List Ty) : Introduced [table] (tableAliases table members) := by
  refine introduced_append (aliasLevel_introduced _ _ (by simp)) ?_
  refine aliasRec_introduced _ _ members fun n t ms' hm => ?_
  exact List.mem_append_left _ (List.mem_map.2 ⟨⟨n, t, _, _⟩, (mem_aliasLevel ..).2 ⟨ms', hm, rfl, rfl⟩, rfl⟩)

theorem dot_split {n m : Text} (hn : '.' ∉ n) (hm : '.' ∉ m) {r s : Text}
    (h : n ++ '.' :: r = m ++ '.' :: s) : n = m ∧ r = s := by
  induction n generalizing m with
  | nil =>
    cases m with
    | nil => simpa using h
    | cons c m => simp at h hm; exact absurd h.1 hm.1
  | cons c n ih =>
    cases m with
    | nil => simp at h hn; exact absurd h.1.symm hn.1
    | cons d m =>
      simp only [List.cons_append, List.cons.injEq] at h
      have := ih (fun e => hn (by simp [e])) (fun e => hm (by simp [e])) h.2
      exact ⟨by rw [h.1, this.1], this.2⟩

theorem namedAll_mem : ∀ {ms : List Ty}, NamedAll ms → ∀ m ∈ ms, Named m
  | [], _, _, h => by simp at h
  | x :: ms, hn, m, h => by
    rw [NamedAll] at hn
    rcases List.mem_cons.1 h with rfl | h
    · exact hn.1
    · exact namedAll_mem hn.2 m h

theorem named_dot : ∀ {m : Ty}, Named m → '.' ∉ memberName m
  | .value _, h => by rw [Named] at h; exact h
  | .rows _, h => by rw [Named] at h; exact h
  | .ent _ _ _, h => by rw [Named] at h; exact h.1

theorem aliasLevel_shape (pre : Text) (ms : List Ty) (x : Text)
    (hx : x ∈ (aliasLevel pre ms).map (·.alias)) : ∃ m ∈ ms, x = pre ++ '.' :: memberName m := by
  obtain ⟨a, ha, rfl⟩ := List.mem_map.1 hx
  obtain ⟨ms', h1, h2, -⟩ := (mem_aliasLevel ..).1 ha
  exact ⟨_, h1, h2⟩

mutual
theorem aliasOf_shape (pre : Text) : ∀ (m : Ty) (x : Text), x ∈ (aliasOf pre m).map (·.alias) →
    ∃ r, x = pre ++ '.' :: (memberName m ++ '.' :: r)
  | .value _, x, h => by simp [aliasOf] at h
  | .rows _, x, h => by simp [aliasOf] at h
  | .ent n t ms, x, h => by
    rw [aliasOf, List.map_append, List.mem_append] at h
    rcases h with h | h
    · obtain ⟨m, -, rfl⟩ := aliasLevel_shape _ _ _ h
      exact ⟨memberName m, by simp [joinAlias, memberName]⟩
    · obtain ⟨m, -, r, rfl⟩ := aliasRec_shape _ ms _ h
      exact ⟨memberName m ++ '.' :: r, by simp [joinAlias, memberName]⟩
theorem aliasRec_shape (pre : Text) : ∀ (ms : List Ty) (x : Text), x ∈ (aliasRec pre ms).map (·.alias) →
    ∃ m ∈ ms, ∃ r, x = pre ++ '.' :: (memberName m ++ '.' :: r)
  | [], x, h => by simp [aliasRec] at h
  | m :: ms, x, h => by
    rw [aliasRec, List.map_append, List.mem_append] at h
    rcases h with h | h
    · exact ⟨m, by simp, aliasOf_shape pre m x h⟩
    · obtain ⟨m', h1, h2⟩ := aliasRec_shape pre ms x h
      exact ⟨m', by simp [h1], h2⟩
end

theorem aliasLevel_nodup (pre : Text) (ms : List Ty) (hd : (ms.map memberName).Nodup) :
    ((aliasLevel pre ms).map (·.alias)).Nodup := by
  induction ms with
  | nil => simp [aliasLevel]
  | cons m ms ih =>
    simp only [List.map_cons, List.nodup_cons] at hd
    have ih := ih hd.2
    cases m with
    | value n => exact ih
    | rows n => exact ih
    | ent n t ms' =>
      simp only [aliasLevel, List.map_cons, List.nodup_cons]
      refine ⟨fun hx => hd.1 ?_, ih⟩
      obtain ⟨m, h1, h2⟩ := aliasLevel_shape _ _ _ hx
      simp only [joinAlias, List.append_cancel_left_eq, List.cons.injEq, true_and] at h2
      exact List.mem_map.2 ⟨m, h1, by simp [memberName, h2]⟩

theorem level_rec_disjoint (pre : Text) (ms : List Ty) (hn : NamedAll ms) (x : Text)
    (h1 : x ∈ (aliasLevel pre ms).map (·.alias)) (h2 : x ∈ (aliasRec pre ms).map (·.alias)) : False := by
  obtain ⟨m, hm, e1⟩ := aliasLevel_shape _ _ _ h1
  obtain ⟨m', hm', r, e2⟩ := aliasRec_shape _ _ _ h2
  rw [e1] at e2
  simp only [List.append_cancel_left_eq, List.cons.injEq, true_and] at e2
  exact named_dot (namedAll_mem hn m hm) (by rw [e2]; simp)

mutual
theorem aliasOf_nodup (pre : Text) : ∀ m : Ty, Named m → ((aliasOf pre m).map (·.alias)).Nodup
  | .value _, _ => by simp [aliasOf]
  | .rows _, _ => by simp [aliasOf]
  | .ent n t ms, h => by
    rw [Named] at h
    rw [aliasOf, List.map_append, List.nodup_append]
    refine ⟨aliasLevel_nodup _ _ h.2.1, aliasRec_nodup _ ms h.2.1 h.2.2, ?_⟩
    rintro x hx y hy rfl
    exact level_rec_disjoint _ _ h.2.2 x hx hy
theorem aliasRec_nodup (pre : Text) : ∀ ms : List Ty, (ms.map memberName).Nodup → NamedAll ms →
    ((aliasRec pre ms).map (·.alias)).Nodup
  | [], _, _ => by simp [aliasRec]
  | m :: ms, hd, hn => by
    rw [NamedAll] at hn
    simp only [List.map_cons, List.nodup_cons] at hd
    rw [aliasRec, List.map_append, List.nodup_append]
    refine ⟨aliasOf_nodup pre m hn.1, aliasRec_nodup pre ms hd.2 hn.2, ?_⟩
    rintro x hx y hy rfl
    obtain ⟨r, e1⟩ := aliasOf_shape _ _ _ hx
    obtain ⟨m', hm', s, e2⟩ := aliasRec_shape _ _ _ hy
    rw [e1] at e2
    simp only [List.append_cancel_left_eq, List.cons.injEq, true_and] at e2
    have := (dot_split (named_dot hn.1) (named_dot (namedAll_mem hn.2 m' hm')) e2).1
    exact hd.1 (List.mem_map.2 ⟨m', hm', this.symm⟩)
end

/-- No two tables of a query have the same alias. -/
theorem aliases_distinct (table : Text) (members : List Ty) (hd : (members.map memberName).Nodup)
    (hn : NamedAll members) : (table :: (tableAliases table members).map (·.alias)).Nodup := by
  rw [List.nodup_cons, tableAliases, List.map_append]
  constructor
  · intro h
    rcases List.mem_append.1 h with h | h
    · obtain ⟨m, -, e⟩ := aliasLevel_shape _ _ _ h
      have := congrArg List.length e
      simp at this
    · obtain ⟨m, -, r, e⟩ := aliasRec_shape _ _ _ h
      have := congrArg List.length e
      simp at this
  · rw [List.nodup_append]
    refine ⟨aliasLevel_nodup _ _ hd, aliasRec_nodup _ _ hd hn, ?_⟩
    rintro x hx y hy rfl
    exact level_rec_disjoint _ _ hn x hx hy

theorem IsColumn.append {s t : Text} {a b : List Tok} (hs : IsColumn s a) (ht : IsColumn t b) :
    IsColumn (s ++ t) (a ++ b) := by
  intro rest; rw [List.append_assoc, hs, ht, List.append_assoc]

theorem IsColumn.kw {s : String} (h : ∀ c ∈ s.toList, c ≠ '"' ∧ c ≠ '?') : IsColumn s.toList (kw s) :=
  fun _ => lex_plain _ _ h

theorem IsColumn.quote {t : Text} (h : Clean t) : IsColumn (Sql.quote t) [.ident t] := fun rest => lex_quote t rest h

theorem sumJoin_isColumn {α : Type} (d : String) (hd : ∀ c ∈ d.toList, c ≠ '"' ∧ c ≠ '?') (f : α → Text)
    (g : α → List Tok) (xs : List α) (hne : xs ≠ []) (hx : ∀ x ∈ xs, IsColumn (f x) (g x)) :
    ∃ t, sumJoin d.toList (xs.map f) = some t ∧ IsColumn t (sep (Spec.kw d) (xs.map g)) := by
  cases xs with
  | nil => exact absurd rfl hne
  | cons x xs =>
    refine ⟨_, rfl, ?_⟩
    clear hne
    induction xs generalizing x with
    | nil => simpa [sep] using hx x (by simp)
    | cons y xs ih =>
      have ih := ih y fun z hz => hx z (by simp at hz ⊢; grind)
      have h := IsColumn.append (IsColumn.append (hx x (by simp)) (IsColumn.kw hd)) ih
      simpa only [List.map_cons, List.flatMap_cons, sep, List.append_assoc] using h

theorem clean_key {t : Text} (h : Clean t) : Clean (keyName t) := by
  simp only [Clean, keyName, List.mem_append, not_or] at *
  exact ⟨h, by decide⟩

theorem joinClause_isColumn (a : Alias) (h : Clean a.member ∧ Clean a.table ∧ Clean a.alias ∧ Clean a.parent) :
    IsColumn (joinClause a) (join a) := by
  obtain ⟨h1, h2, h3, h4⟩ := h
  exact .append (.append (.append (.append (.append (.append (.append (.kw (by decide)) (.quote h2))
    (.kw (by decide))) (.quote h3)) (.kw (by decide))) (qualified_isColumn _ _ h4 (clean_key h1)))
    (.kw (by decide))) (qualified_isColumn _ _ h3 (clean_key h2))

/-- The whole text of a select over a nested entity.  With `columns_exact`, `joins_exact`,
`joins_introduced` and `aliases_distinct` this says what it asks for.
Partial: the entity needs at least one nested entity and one column of its own or of a nested entity
(see `flat_entity_violated`), and several keys are separated by commas. -/
theorem select_text_partial (table : Text) (members : List Ty) (keys : List (Text × V)) (ts : List (List Tok))
    (hr : ∀ n, Ty.rows n ∉ members) (hc : aliasedColumns table members ≠ [])
    (hj : tableAliases table members ≠ []) (hne : keys ≠ []) (ht : Clean table)
    (hcl : ∀ c ∈ aliasedColumns table members, Clean c.1 ∧ Clean c.2)
    (hal : ∀ a ∈ tableAliases table members, Clean a.member ∧ Clean a.table ∧ Clean a.alias ∧ Clean a.parent)
    (hl : ts.length = keys.length) (hk : ∀ p ∈ (keys.map (·.1)).zip ts, IsColumn p.1 p.2) :
    ∃ text, select table members keys = some (text, keys.map (·.2)) ∧
      tokens text = kw "SELECT " ++ sep (kw ",") ((aliasedColumns table members).map column) ++
        kw " FROM " ++ [.ident table] ++ sep (kw " ") ((tableAliases table members).map join) ++
        kw " WHERE " ++ sep (kw ",") (ts.map equation) ++ kw ";" := by
  obtain ⟨cols, h1, h2⟩ := sumJoin_isColumn "," (by decide) (fun c : Text × Text => qualified c.1 c.2) column _ hc
    fun c h => qualified_isColumn _ _ (hcl c h).1 (hcl c h).2
  obtain ⟨joins, h3, h4⟩ := sumJoin_isColumn " " (by decide) joinClause join _ hj
    fun a h => joinClause_isColumn a (hal a h)
  obtain ⟨text, h5, h6⟩ := select_statement_partial table cols joins _ _ keys ts hne ht h2 h4 hl hk
  refine ⟨text, ?_, h6⟩
  rw [select, if_neg, columnsClause, h1, joinClauses, h3]
  · exact h5
  · simp only [List.any_eq_true, not_exists, not_and]
    intro m hm
    cases m with
    | rows n => exact absurd hm (hr n)
    | _ => simp [Ty.isRows]

/-- VIOLATION: an entity without nested entities cannot be selected at all. -/
theorem flat_entity_violated (table : Text) (members : List Ty) (keys : List (Text × V))
    (h : ∀ n t ms, Ty.ent n t ms ∉ members) : select table members keys = none := by
  have h1 : tableAliases table members = [] := by
    rw [tableAliases]
    induction members with
    | nil => rfl
    | cons m ms ih =>
      have ih := ih fun n t x hx => h n t x (by simp [hx])
      cases m with
      | ent n t x => exact absurd (List.mem_cons_self ..) (h n t x)
      | value n => simpa [aliasLevel, aliasRec, aliasOf] using ih
      | rows n => simpa [aliasLevel, aliasRec, aliasOf] using ih
  rw [select]
  split
  · rfl
  · rw [joinClauses, h1]
    cases columnsClause table members <;> rfl

mutual
/-- Removes the containers of nested entities. -/
def prune : Ty → Ty
  | .ent n t ms => .ent n t (pruneAll ms)
  | m => m
def pruneAll : List Ty → List Ty
  | [] => []
  | .rows _ :: ms => pruneAll ms
  | .value n :: ms => .value n :: pruneAll ms
  | .ent n t ms' :: ms => prune (.ent n t ms') :: pruneAll ms
end

theorem aliasLevel_prune (pre : Text) : ∀ ms : List Ty, aliasLevel pre (pruneAll ms) = aliasLevel pre ms
  | [] => by simp [pruneAll]
  | .value n :: ms => by simp [pruneAll, aliasLevel, aliasLevel_prune pre ms]
  | .rows n :: ms => by simp [pruneAll, aliasLevel, aliasLevel_prune pre ms]
  | .ent n t ms' :: ms => by simp [pruneAll, prune, aliasLevel, aliasLevel_prune pre ms]

mutual
theorem aliasOf_prune (pre : Text) : ∀ m : Ty, aliasOf pre (prune m) = aliasOf pre m
  | .value n => rfl
  | .rows n => rfl
  | .ent n t ms => by
    simp only [prune, aliasOf, aliasLevel_prune]; rw [aliasRec_prune _ ms]
theorem aliasRec_prune (pre : Text) : ∀ ms : List Ty, aliasRec pre (pruneAll ms) = aliasRec pre ms
  | [] => by simp [pruneAll]
  | .value n :: ms => by simp [pruneAll, aliasRec, aliasOf, aliasRec_prune pre ms]
  | .rows n :: ms => by simp [pruneAll, aliasRec, aliasOf, aliasRec_prune pre ms]
  | .ent n t ms' :: ms => by
    simp only [pruneAll, aliasRec]; rw [aliasOf_prune pre (.ent n t ms'), aliasRec_prune pre ms]
end

theorem valueColumns_prune (a : Text) : ∀ ms : List Ty, valueColumns a (pruneAll ms) = valueColumns a ms
  | [] => by simp [pruneAll]
  | .value n :: ms => by simp [pruneAll, valueColumns, valueColumns_prune a ms]
  | .rows n :: ms => by simp [pruneAll, valueColumns, valueColumns_prune a ms]
  | .ent n t ms' :: ms => by simp [pruneAll, prune, valueColumns, valueColumns_prune a ms]

theorem columnLevel_prune (pre : Text) : ∀ ms : List Ty, columnLevel pre (pruneAll ms) = columnLevel pre ms
  | [] => by simp [pruneAll]
  | .value n :: ms => by simp [pruneAll, columnLevel, columnLevel_prune pre ms]
  | .rows n :: ms => by simp [pruneAll, columnLevel, columnLevel_prune pre ms]
  | .ent n t ms' :: ms => by
    simp [pruneAll, prune, columnLevel, columnLevel_prune pre ms, valueColumns_prune]

mutual
theorem columnsOf_prune (pre : Text) : ∀ m : Ty, columnsOf pre (prune m) = columnsOf pre m
  | .value n => rfl
  | .rows n => rfl
  | .ent n t ms => by
    simp only [prune, columnsOf, columnLevel_prune]; rw [columnsRec_prune _ ms]
theorem columnsRec_prune (pre : Text) : ∀ ms : List Ty, columnsRec pre (pruneAll ms) = columnsRec pre ms
  | [] => by simp [pruneAll]
  | .value n :: ms => by simp [pruneAll, columnsRec, columnsOf, columnsRec_prune pre ms]
  | .rows n :: ms => by simp [pruneAll, columnsRec, columnsOf, columnsRec_prune pre ms]
  | .ent n t ms' :: ms => by
    simp only [pruneAll, columnsRec]; rw [columnsOf_prune pre (.ent n t ms'), columnsRec_prune pre ms]
end

/-- The containers of the entity itself are refused. -/
theorem rows_refused (table : Text) (members : List Ty) (keys : List (Text × V)) (n : Text)
    (h : Ty.rows n ∈ members) : select table members keys = none := by
  rw [select, if_pos]
  exact List.any_eq_true.2 ⟨_, h, rfl⟩

/-- VIOLATION: the containers of nested entities are not refused but left out of the query: the query is the
one for the type without them. -/
theorem nested_rows_ignored_violated (table : Text) (members : List Ty) (keys : List (Text × V))
    (h : ∀ n, Ty.rows n ∉ members) : select table (pruneAll members) keys = select table members keys := by
  have h1 : members.any Ty.isRows = false := by
    rw [List.any_eq_false]
    intro m hm
    cases m with
    | rows n => exact absurd hm (h n)
    | _ => simp [Ty.isRows]
  have h2 : (pruneAll members).any Ty.isRows = false := by
    clear h h1
    suffices ∀ ms : List Ty, (pruneAll ms).any Ty.isRows = false from this _
    intro ms
    induction ms with
    | nil => simp [pruneAll]
    | cons m ms ih => 
      have e1 (n) : (Ty.value n).isRows = false := rfl
      have e2 (n t ms) : (Ty.ent n t ms).isRows = false := rfl
      cases m <;> simp only [pruneAll, prune, List.any_cons, e1, e2, ih, Bool.or_false]
  simp only [select, h1, h2, columnsClause, joinClauses, tableAliases, aliasedColumns, aliasLevel_prune,
    aliasRec_prune, valueColumns_prune, columnLevel_prune, columnsRec_prune]

/-- The entity types of test/nbdl/sql_db: a `foo` with a `bar` that has a `baz`. -/
def exampleType : List Ty :=
  [.value "x".toList, .ent "b".toList "bar".toList [.value "y".toList, .ent "c".toList "baz".toList [.value "z".toList]]]

example : select "foo".toList exampleType [("\"foo\".\"foo_id\"".toList, 5)] = some
    ("SELECT \"foo\".\"x\",\"foo.b\".\"y\",\"foo.b.c\".\"z\" FROM \"foo\" JOIN \"bar\" AS \"foo.b\" ON \"foo\".\"b_id\" = \"foo.b\".\"bar_id\"  JOIN \"baz\" AS \"foo.b.c\" ON \"foo.b\".\"c_id\" = \"foo.b.c\".\"baz_id\" WHERE \"foo\".\"foo_id\"=?;".toList, [5]) := by
  decide +kernel
example : (exampleType.map memberName).Nodup ∧ NamedAll exampleType := by
  refine ⟨by decide, ?_⟩
  simp [exampleType, NamedAll, Named, memberName]
example : EntAt "foo".toList exampleType ["b".toList, "c".toList] "baz".toList [.value "z".toList] :=
  .child (path := ["b".toList]) (t := "bar".toList) (ms := [.value "y".toList, .ent "c".toList "baz".toList [.value "z".toList]])
    (.child (path := []) .root (by simp [exampleType])) (by simp)

/-! ## C68: updates -/

/-- An update that is accepted changes the row selected by all the keys, and sets every member of the entity: the
entity has plain members only, in order. -/
theorem update_complete (table : Text) (members : List (Node V)) (keys : List (KeyArg K)) (r)
    (h : update table members keys = some r) :
    r = (table, plain members, keys.map fun k => (k.name, k.value)) ∧
      (plain (K := K) members).length = members.length ∧ ∃ k ∈ keys, k.primaryOf = some table := by
  rw [update] at h
  split at h
  case isFalse => cases h
  rename_i hk
  split at h
  case isTrue => cases h
  rename_i hn
  simp only [Option.some.injEq] at h
  refine ⟨by rw [← h, valueCols_plain], ?_, ?_⟩
  · simp only [Bool.not_eq_true, List.any_eq_false] at hn
    clear h
    induction members with
    | nil => rfl
    | cons m ms ih =>
      have ih := ih fun x hx => hn x (by simp [hx])
      have := hn m (by simp)
      cases m with
      | value n v => simpa [plain] using ih
      | _ => cases this
  · simpa [isPrimaryKey] using hk

/-- Updates of entities with nested entities or containers are refused. -/
theorem update_nested (table : Text) (members : List (Node V)) (keys : List (KeyArg K)) (m : Node V)
    (hm : m ∈ members) (h : ∀ n v, m ≠ .value n v) : update table members keys = none := by
  rw [update]
  split
  · rw [if_pos]
    refine List.any_eq_true.2 ⟨m, hm, ?_⟩
    cases m with
    | value n v => exact absurd rfl (h n v)
    | _ => rfl
  · rfl

/-- With the primary key under its own name, the update of a flat entity is accepted. -/
theorem update_accepted (table : Text) (members : List (Node V)) (keys : List (KeyArg K)) (k : KeyArg K)
    (hk : k ∈ keys) (h1 : k.primaryOf = some table) (hm : ∀ m ∈ members, ∃ n v, m = .value n v) :
    (update table members keys).isSome := by
  rw [update, if_pos, if_neg]
  · rfl
  · simp only [Bool.not_eq_true, List.any_eq_false]
    intro m h
    obtain ⟨n, v, rfl⟩ := hm m h
    simp [Node.isNested]
  · exact List.any_eq_true.2 ⟨k, hk, by simp [isPrimaryKey, h1]⟩

/-- VIOLATION: for every flat entity there are keys that do not name its primary key column and yet are
accepted. -/
theorem update_without_key_violated (table : Text) (members : List (Node V)) (v : K)
    (hm : ∀ m ∈ members, ∃ n v, m = .value n v) :
    ∃ keys : List (KeyArg K), (∀ k ∈ keys, k.name ≠ keyName table) ∧ (update table members keys).isSome := by
  refine ⟨[⟨[], v, some table⟩], ?_, update_accepted table members _ ⟨[], v, some table⟩ (by simp) rfl hm⟩
  intro k hk
  simp only [List.mem_singleton] at hk
  subst hk
  intro e
  have := congrArg List.length e
  simp [keyName] at this

/-- test/nbdl/sql_db/update.cpp -/
example : update (V := Nat) (K := Nat) "foo".toList [.value "foo_value".toList 42]
      [⟨"foo_id".toList, 1, some "foo".toList⟩] =
    some ("foo".toList, [("foo_value".toList, .value 42)], [("foo_id".toList, 1)]) := rfl

end Nbdl.Sql
