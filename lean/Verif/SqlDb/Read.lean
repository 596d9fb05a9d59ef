import Verif.SqlDb.Spec
import Verif.Sql.Props
/-!
# Reading the generated statements
-/
namespace Nbdl.SqlDb
open Sql Sql.Spec Spec

/-- Reading from the start of a word. -/
abbrev ws0 (ts : List Tok) : List Word := words [] ts

theorem words_ident (t : Text) (ts : List Tok) : ws0 (.ident t :: ts) = .name t :: ws0 ts := rfl
theorem words_hole (ts : List Tok) : ws0 (.hole :: ts) = .hole :: ws0 ts := rfl

theorem words_insert (ts : List Tok) :
    ws0 (kw "INSERT INTO " ++ ts) = .kw "INSERT".toList :: .kw "INTO".toList :: ws0 ts := by
  simp [ws0, kw, words, flush, Char.isAlphanum, Char.isAlpha, Char.isUpper, Char.isLower, Char.isDigit]

theorem words_open (ts : List Tok) : ws0 (kw " (" ++ ts) = .punct '(' :: ws0 ts := by
  simp [ws0, kw, words, flush, Char.isAlphanum, Char.isAlpha, Char.isUpper, Char.isLower, Char.isDigit]

theorem words_values (ts : List Tok) :
    ws0 (kw ") VALUES (" ++ ts) = .punct ')' :: .kw "VALUES".toList :: .punct '(' :: ws0 ts := by
  simp [ws0, kw, words, flush, Char.isAlphanum, Char.isAlpha, Char.isUpper, Char.isLower, Char.isDigit]

theorem words_close : ws0 (kw ");") = [.punct ')', .punct ';'] := by decide

theorem words_update (ts : List Tok) : ws0 (kw "UPDATE " ++ ts) = .kw "UPDATE".toList :: ws0 ts := by
  simp [ws0, kw, words, flush, Char.isAlphanum, Char.isAlpha, Char.isUpper, Char.isLower, Char.isDigit]
theorem words_set (ts : List Tok) : ws0 (kw " SET " ++ ts) = .kw "SET".toList :: ws0 ts := by
  simp [ws0, kw, words, flush, Char.isAlphanum, Char.isAlpha, Char.isUpper, Char.isLower, Char.isDigit]
theorem words_where (ts : List Tok) : ws0 (kw " WHERE " ++ ts) = .kw "WHERE".toList :: ws0 ts := by
  simp [ws0, kw, words, flush, Char.isAlphanum, Char.isAlpha, Char.isUpper, Char.isLower, Char.isDigit]
theorem words_limit : ws0 (kw " LIMIT 1;") = [.kw "LIMIT".toList, .kw "1".toList, .punct ';'] := by decide
theorem words_select (ts : List Tok) : ws0 (kw "SELECT " ++ ts) = .kw "SELECT".toList :: ws0 ts := by
  simp [ws0, kw, words, flush, Char.isAlphanum, Char.isAlpha, Char.isUpper, Char.isLower, Char.isDigit]
theorem words_from (ts : List Tok) : ws0 (kw " FROM " ++ ts) = .kw "FROM".toList :: ws0 ts := by
  simp [ws0, kw, words, flush, Char.isAlphanum, Char.isAlpha, Char.isUpper, Char.isLower, Char.isDigit]
theorem words_join (ts : List Tok) : ws0 (kw " JOIN " ++ ts) = .kw "JOIN".toList :: ws0 ts := by
  simp [ws0, kw, words, flush, Char.isAlphanum, Char.isAlpha, Char.isUpper, Char.isLower, Char.isDigit]
theorem words_as (ts : List Tok) : ws0 (kw " AS " ++ ts) = .kw "AS".toList :: ws0 ts := by
  simp [ws0, kw, words, flush, Char.isAlphanum, Char.isAlpha, Char.isUpper, Char.isLower, Char.isDigit]
theorem words_on (ts : List Tok) : ws0 (kw " ON " ++ ts) = .kw "ON".toList :: ws0 ts := by
  simp [ws0, kw, words, flush, Char.isAlphanum, Char.isAlpha, Char.isUpper, Char.isLower, Char.isDigit]
theorem words_eq (ts : List Tok) : ws0 (kw " = " ++ ts) = .punct '=' :: ws0 ts := by
  simp [ws0, kw, words, flush, Char.isAlphanum, Char.isAlpha, Char.isUpper, Char.isLower, Char.isDigit]
theorem words_eq' (ts : List Tok) : ws0 (kw "=" ++ ts) = .punct '=' :: ws0 ts := by
  simp [ws0, kw, words, flush, Char.isAlphanum, Char.isAlpha, Char.isUpper, Char.isLower, Char.isDigit]
theorem words_space (ts : List Tok) : ws0 (kw " " ++ ts) = ws0 ts := by
  simp [ws0, kw, words, flush, Char.isAlphanum, Char.isAlpha, Char.isUpper, Char.isLower, Char.isDigit]
theorem words_comma (ts : List Tok) : ws0 (kw "," ++ ts) = .punct ',' :: ws0 ts := by
  simp [ws0, kw, words, flush, Char.isAlphanum, Char.isAlpha, Char.isUpper, Char.isLower, Char.isDigit]
theorem words_end : ws0 (kw ";") = [.punct ';'] := by decide

theorem words_column (c : Text × Text) (ts : List Tok) :
    ws0 (column c ++ ts) = .name c.1 :: .punct '.' :: .name c.2 :: ws0 ts := by
  simp [column, ws0, words, flush, Char.isAlphanum, Char.isAlpha, Char.isUpper, Char.isLower, Char.isDigit]

/-- The words do not begin with a comma. -/
def NoComma (ws : List Word) : Prop := ∀ r, ws ≠ .punct ',' :: r

theorem readNames_last (t : Text) (ws : List Word) (h : NoComma ws) : readNames (.name t :: ws) = some ([t], ws) := by
  rw [readNames.eq_def]
  split
  · rename_i heq; cases heq; exact absurd rfl (h _)
  · rename_i heq; cases heq; rfl
  · rename_i h2; exact absurd rfl (h2 _ _)

theorem readHoles_last (ws : List Word) (h : NoComma ws) : readHoles (.hole :: ws) = some (1, ws) := by
  rw [readHoles.eq_def]
  split
  · rename_i heq; cases heq; exact absurd rfl (h _)
  · rename_i heq; cases heq; rfl
  · rename_i h2; exact absurd rfl (h2 _)

theorem readColumns_last (c : Text × Text) (ws : List Word) (h : NoComma ws) :
    readColumns (.name c.1 :: .punct '.' :: .name c.2 :: ws) = some ([c], ws) := by
  rw [readColumns.eq_def]
  split
  · rename_i heq; cases heq; exact absurd rfl (h _)
  · rename_i heq; cases heq; rfl
  · rename_i h2; exact absurd rfl (h2 _ _ _)

theorem readSets_last (t : Text) (ws : List Word) (h : NoComma ws) :
    readSets (.name t :: .punct '=' :: .hole :: ws) = some ([t], ws) := by
  rw [readSets.eq_def]
  split
  · rename_i heq; cases heq; exact absurd rfl (h _)
  · rename_i heq; cases heq; rfl
  · rename_i h2; exact absurd rfl (h2 _ _)

theorem readNames_sep (ns : List Text) (hne : ns ≠ []) (ts : List Tok) (h : NoComma (ws0 ts)) :
    readNames (ws0 (sep (kw ",") (ns.map fun n => [.ident n]) ++ ts)) = some (ns, ws0 ts) := by
  induction ns with
  | nil => exact absurd rfl hne
  | cons n ns ih =>
    cases ns with
    | nil => simp only [List.map_cons, List.map_nil, sep, List.cons_append, List.nil_append]
             rw [words_ident, readNames_last _ _ h]
    | cons m ns =>
      have ih := ih (by simp)
      simp only [List.map_cons, sep, List.cons_append, List.nil_append, List.append_assoc] at ih ⊢
      rw [words_ident, words_comma, readNames, ih]; rfl

theorem readHoles_sep {α : Type} (ns : List α) (hne : ns ≠ []) (ts : List Tok) (h : NoComma (ws0 ts)) :
    readHoles (ws0 (sep (kw ",") (ns.map fun _ => [.hole]) ++ ts)) = some (ns.length, ws0 ts) := by
  induction ns with
  | nil => exact absurd rfl hne
  | cons n ns ih =>
    cases ns with
    | nil => simp only [List.map_cons, List.map_nil, sep, List.cons_append, List.nil_append]
             rw [words_hole, readHoles_last _ h]; rfl
    | cons m ns =>
      have ih := ih (by simp)
      simp only [List.map_cons, sep, List.cons_append, List.nil_append, List.append_assoc] at ih ⊢
      rw [words_hole, words_comma, readHoles, ih]; rfl

theorem readColumns_sep (ns : List (Text × Text)) (hne : ns ≠ []) (ts : List Tok) (h : NoComma (ws0 ts)) :
    readColumns (ws0 (sep (kw ",") (ns.map column) ++ ts)) = some (ns, ws0 ts) := by
  induction ns with
  | nil => exact absurd rfl hne
  | cons n ns ih =>
    cases ns with
    | nil => simp only [List.map_cons, List.map_nil, sep]
             rw [words_column, readColumns_last _ _ h]
    | cons m ns =>
      have ih := ih (by simp)
      simp only [List.map_cons, sep, List.append_assoc] at ih ⊢
      rw [words_column, words_comma, readColumns, ih]; rfl

theorem readSets_sep (ns : List Text) (hne : ns ≠ []) (ts : List Tok) (h : NoComma (ws0 ts)) :
    readSets (ws0 (sep (kw ",") (ns.map fun n => equation [.ident n]) ++ ts)) = some (ns, ws0 ts) := by
  induction ns with
  | nil => exact absurd rfl hne
  | cons n ns ih =>
    cases ns with
    | nil => simp only [List.map_cons, List.map_nil, sep, equation, List.cons_append, List.nil_append,
               List.append_assoc]
             rw [words_ident, words_eq', words_hole, readSets_last _ _ h]
    | cons m ns =>
      have ih := ih (by simp)
      simp only [List.map_cons, sep, equation, List.append_assoc, List.cons_append, List.nil_append] at ih ⊢
      rw [words_ident, words_eq', words_hole, words_comma, readSets, ih]; rfl

/-- The join that a join clause is. -/
def toJoin (a : Alias) : Join := ⟨a.table, a.alias, (a.parent, keyName a.member), (a.alias, keyName a.table)⟩

theorem readJoins_end (ts : List Tok) : readJoins (.kw "WHERE".toList :: ws0 ts) = ([], .kw "WHERE".toList :: ws0 ts) := by
  rw [readJoins.eq_def]
  split
  · rename_i heq
    injection heq with h1 h2
    injection h1 with h1
    rw [if_neg (by rintro ⟨rfl, -⟩; exact absurd h1 (by decide)), ← h1, h2]
  · rfl

theorem words_joinClause (a : Alias) (ts : List Tok) :
    ws0 (join a ++ ts) = .kw "JOIN".toList :: .name a.table :: .kw "AS".toList :: .name a.alias :: .kw "ON".toList ::
      .name a.parent :: .punct '.' :: .name (keyName a.member) :: .punct '=' :: .name a.alias :: .punct '.' ::
      .name (keyName a.table) :: ws0 ts := by
  simp only [join, List.append_assoc, List.cons_append, List.nil_append]
  rw [words_join, words_ident, words_as, words_ident, words_on, words_column, words_eq, words_column]
  rfl

theorem readJoins_cons (a : Alias) (ts : List Tok) :
    readJoins (ws0 (join a ++ ts)) = (toJoin a :: (readJoins (ws0 ts)).1, (readJoins (ws0 ts)).2) := by
  rw [words_joinClause, readJoins, if_pos ⟨rfl, rfl, rfl⟩]; rfl

theorem readJoins_sep (js : List Alias) (ts : List Tok) (hts : readJoins (ws0 ts) = ([], ws0 ts)) :
    readJoins (ws0 (sep (kw " ") (js.map join) ++ ts)) = (js.map toJoin, ws0 ts) := by
  induction js with
  | nil => exact hts
  | cons j js ih =>
    cases js with
    | nil => simp only [List.map_cons, List.map_nil, sep]; rw [readJoins_cons, hts]
    | cons m ns =>
      simp only [List.map_cons, sep, List.append_assoc] at ih ⊢
      rw [readJoins_cons, words_space, ih]

/-- The insert statement is read as what it is meant to be. -/
theorem read_insert (text table : Text) (columns : List Text) (hne : columns ≠ [])
    (h : tokens text = kw "INSERT INTO " ++ [.ident table] ++ kw " (" ++
        sep (kw ",") (columns.map fun c => [.ident c]) ++ kw ") VALUES (" ++
        sep (kw ",") (columns.map fun _ => [.hole]) ++ kw ");") :
    read text = some (.insert table columns) := by
  have hw : words [] (tokens text) = .kw "INSERT".toList :: .kw "INTO".toList :: .name table :: .punct '(' ::
      ws0 (sep (kw ",") (columns.map fun c => [.ident c]) ++ (kw ") VALUES (" ++
        (sep (kw ",") (columns.map fun _ => [.hole]) ++ kw ");"))) := by
    rw [h]
    simp only [List.append_assoc, List.cons_append, List.nil_append]
    exact (words_insert _).trans (by rw [words_ident, words_open])
  have h2 : readInsert (words [] (tokens text)) = some (.insert table columns) := by
    rw [hw, readInsert, if_pos ⟨rfl, rfl⟩, readNames_sep _ hne _ (by rw [words_values]; nofun), words_values]
    simp only []
    rw [readHoles_sep _ hne _ (by rw [words_close]; nofun), words_close]
    simp
  rw [read, h2]; rfl

/-- An insert statement with another number of placeholders than of columns is not a statement. -/
theorem insert_miscounted {α : Type} (text table : Text) (columns : List Text) (holes : List α) (hne : columns ≠ [])
    (hho : holes ≠ []) (hcount : holes.length ≠ columns.length)
    (h : tokens text = kw "INSERT INTO " ++ [.ident table] ++ kw " (" ++
        sep (kw ",") (columns.map fun c => [.ident c]) ++ kw ") VALUES (" ++
        sep (kw ",") (holes.map fun _ => [.hole]) ++ kw ");") :
    read text = none := by
  have hw : words [] (tokens text) = .kw "INSERT".toList :: .kw "INTO".toList :: .name table :: .punct '(' ::
      ws0 (sep (kw ",") (columns.map fun c => [.ident c]) ++ (kw ") VALUES (" ++
        (sep (kw ",") (holes.map fun _ => [.hole]) ++ kw ");"))) := by
    rw [h]
    simp only [List.append_assoc, List.cons_append, List.nil_append]
    exact (words_insert _).trans (by rw [words_ident, words_open])
  have h1 : readInsert (words [] (tokens text)) = none := by
    rw [hw, readInsert, if_pos ⟨rfl, rfl⟩, readNames_sep _ hne _ (by rw [words_values]; nofun), words_values]
    simp only []
    rw [readHoles_sep _ hho _ (by rw [words_close]; nofun), words_close]
    simp [hcount]
  have h2 : readUpdate (words [] (tokens text)) = none := by
    rw [hw, readUpdate.eq_def]
  have h3 : readSelect (words [] (tokens text)) = none := by
    rw [hw, readSelect, if_neg (by decide)]
  rw [read, h1, h2, h3]; rfl

example : tokens "INSERT INTO \"t\" (\"a\",\"b\") VALUES (?);".toList = kw "INSERT INTO " ++ [.ident "t".toList] ++ kw " (" ++
    sep (kw ",") (["a".toList, "b".toList].map fun c => [.ident c]) ++ kw ") VALUES (" ++
    sep (kw ",") ([()].map fun _ => [.hole]) ++ kw ");" := by decide +kernel

theorem read_update (text table : Text) (columns : List Text) (key : Text) (hne : columns ≠ [])
    (h : tokens text = kw "UPDATE " ++ [.ident table] ++ kw " SET " ++
        sep (kw ",") (columns.map fun c => equation [.ident c]) ++ kw " WHERE " ++
        equation [.ident key] ++ kw " LIMIT 1;") :
    read text = some (.update table columns key) := by
  have hw : words [] (tokens text) = .kw "UPDATE".toList :: .name table :: .kw "SET".toList ::
      ws0 (sep (kw ",") (columns.map fun c => equation [.ident c]) ++ (kw " WHERE " ++ ([.ident key] ++ (kw "=" ++
        ([.hole] ++ kw " LIMIT 1;"))))) := by
    rw [h]
    simp only [equation, List.append_assoc, List.cons_append, List.nil_append]
    exact (words_update _).trans (by rw [words_ident, words_set])
  have h1 : readInsert (words [] (tokens text)) = none := by
    rw [hw]; rfl
  have h2 : readUpdate (words [] (tokens text)) = some (.update table columns key) := by
    rw [hw, readUpdate, if_pos ⟨rfl, rfl⟩, readSets_sep _ hne _ (by rw [words_where]; nofun), words_where]
    simp only [List.cons_append, List.nil_append]
    rw [words_ident, words_eq', words_hole, words_limit]
    simp
  rw [read, h1, h2]; rfl

theorem read_select (text table : Text) (columns : List (Text × Text)) (joins : List Alias) (key : Text × Text)
    (hne : columns ≠ [])
    (h : tokens text = kw "SELECT " ++ sep (kw ",") (columns.map column) ++
        kw " FROM " ++ [.ident table] ++ sep (kw " ") (joins.map join) ++
        kw " WHERE " ++ equation (column key) ++ kw ";") :
    read text = some (.select columns table (joins.map toJoin) key) := by
  have hw : words [] (tokens text) = .kw "SELECT".toList ::
      ws0 (sep (kw ",") (columns.map column) ++ (kw " FROM " ++ ([.ident table] ++ (sep (kw " ") (joins.map join) ++
        (kw " WHERE " ++ (column key ++ (kw "=" ++ ([.hole] ++ kw ";")))))))) := by
    rw [h]
    simp only [equation, List.append_assoc]
    exact words_select _
  have h1 : readInsert (words [] (tokens text)) = none := by
    rw [hw, readInsert.eq_def]
    split
    · rename_i heq
      injection heq with h1 h2
      injection h1 with h1
      rw [if_neg]
      rintro ⟨rfl, -⟩
      exact absurd h1 (by decide)
    · rfl
  have h2 : readUpdate (words [] (tokens text)) = none := by
    rw [hw, readUpdate.eq_def]
    split
    · rename_i heq
      injection heq with h1 h2
      injection h1 with h1
      rw [if_neg]
      rintro ⟨rfl, -⟩
      exact absurd h1 (by decide)
    · rfl
  have h3 : readSelect (words [] (tokens text)) = some (.select columns table (joins.map toJoin) key) := by
    rw [hw, readSelect, if_pos rfl, readColumns_sep _ hne _ (by rw [words_from]; nofun), words_from]
    simp only [List.cons_append, List.nil_append]
    rw [words_ident]
    simp only [if_true]
    rw [readJoins_sep _ _ (by rw [words_where, readJoins_end]), words_where, words_column, words_eq',
      words_hole, words_end]
    simp
  rw [read, h1, h2, h3]; rfl

end Nbdl.SqlDb
