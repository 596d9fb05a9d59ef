import Verif.Sql.Spec
/-!
# The generated SQL on a database

nbdl makes the text of statements and binds values; the database that executes them is not part of it.  To say
what the statements do, this file gives the meaning of the part of SQL they are written in: a reader for the text
and an evaluator on tables.  The statements are those of `Verif.Sql.Model`
(include/nbdl/sql_db/statement/insert.hpp:30-60, select.hpp:31-60, update.hpp:33-70).
-/
namespace Nbdl.SqlDb
open Sql Sql.Spec

/-! ## Reading statements -/

/-- Words of SQL. -/
inductive Word where
  /-- a quoted identifier -/
  | name (t : Text)
  /-- a placeholder -/
  | hole
  /-- a keyword or a number -/
  | kw (t : Text)
  | punct (c : Char)
  deriving DecidableEq, Repr

def flush (acc : Text) : List Word := if acc = [] then [] else [.kw acc]

/-- Letters and digits next to each other form a word, spaces separate words. `acc` is the word that is being
read. -/
def words (acc : Text) : List Tok → List Word
  | [] => flush acc
  | .char c :: ts =>
    if c.isAlphanum then words (acc ++ [c]) ts
    else if c = ' ' then flush acc ++ words [] ts
    else flush acc ++ .punct c :: words [] ts
  | .ident t :: ts => flush acc ++ .name t :: words [] ts
  | .hole :: ts => flush acc ++ .hole :: words [] ts

/-- `JOIN table AS alias ON left = right` -/
structure Join where
  table : Text
  alias : Text
  left : Text × Text
  right : Text × Text
  deriving DecidableEq, Repr

inductive Stmt where
  | insert (table : Text) (columns : List Text)
  | update (table : Text) (columns : List Text) (key : Text)
  | select (columns : List (Text × Text)) (table : Text) (joins : List Join) (key : Text × Text)
  deriving DecidableEq, Repr

/-- Names separated by commas, and what follows. -/
def readNames : List Word → Option (List Text × List Word)
  | .name t :: .punct ',' :: ws => (readNames ws).map fun r => (t :: r.1, r.2)
  | .name t :: ws => some ([t], ws)
  | _ => none

/-- Placeholders separated by commas, and what follows. -/
def readHoles : List Word → Option (Nat × List Word)
  | .hole :: .punct ',' :: ws => (readHoles ws).map fun r => (r.1 + 1, r.2)
  | .hole :: ws => some (1, ws)
  | _ => none

/-- Qualified names separated by commas, and what follows. -/
def readColumns : List Word → Option (List (Text × Text) × List Word)
  | .name a :: .punct '.' :: .name c :: .punct ',' :: ws =>
    (readColumns ws).map fun r => ((a, c) :: r.1, r.2)
  | .name a :: .punct '.' :: .name c :: ws => some ([(a, c)], ws)
  | _ => none

/-- `column = ?` separated by commas, and what follows. -/
def readSets : List Word → Option (List Text × List Word)
  | .name t :: .punct '=' :: .hole :: .punct ',' :: ws => (readSets ws).map fun r => (t :: r.1, r.2)
  | .name t :: .punct '=' :: .hole :: ws => some ([t], ws)
  | _ => none

/-- Any number of joins, and what follows. -/
def readJoins : List Word → List Join × List Word
  | .kw j :: .name t :: .kw a :: .name al :: .kw o :: .name p :: .punct '.' :: .name pc :: .punct '=' ::
      .name q :: .punct '.' :: .name qc :: ws =>
    if j = "JOIN".toList ∧ a = "AS".toList ∧ o = "ON".toList then
      (⟨t, al, (p, pc), (q, qc)⟩ :: (readJoins ws).1, (readJoins ws).2)
    else ([], .kw j :: .name t :: .kw a :: .name al :: .kw o :: .name p :: .punct '.' :: .name pc :: .punct '=' ::
      .name q :: .punct '.' :: .name qc :: ws)
  | ws => ([], ws)

def readInsert : List Word → Option Stmt
  | .kw i :: .kw j :: .name t :: .punct '(' :: ws =>
    if i = "INSERT".toList ∧ j = "INTO".toList then
      match readNames ws with
      | some (ns, .punct ')' :: .kw v :: .punct '(' :: ws') =>
        match readHoles ws' with
        | some (n, [.punct ')', .punct ';']) =>
          if v = "VALUES".toList ∧ n = ns.length then some (.insert t ns) else none
        | _ => none
      | _ => none
    else none
  | _ => none

def readUpdate : List Word → Option Stmt
  | .kw u :: .name t :: .kw s :: ws =>
    if u = "UPDATE".toList ∧ s = "SET".toList then
      match readSets ws with
      | some (ns, [.kw w, .name k, .punct '=', .hole, .kw l, .kw one, .punct ';']) =>
        if w = "WHERE".toList ∧ l = "LIMIT".toList ∧ one = "1".toList then some (.update t ns k) else none
      | _ => none
    else none
  | _ => none

def readSelect : List Word → Option Stmt
  | .kw s :: ws =>
    if s = "SELECT".toList then
      match readColumns ws with
      | some (cs, .kw f :: .name t :: ws') =>
        if f = "FROM".toList then
          match readJoins ws' with
          | (js, [.kw w, .name a, .punct '.', .name c, .punct '=', .hole, .punct ';']) =>
            if w = "WHERE".toList then some (.select cs t js (a, c)) else none
          | _ => none
        else none
      | _ => none
    else none
  | _ => none

/-- The statement a text is.  Only statements with one condition are understood: nbdl separates conditions by
commas, which is not SQL (C49). -/
def read (text : Text) : Option Stmt :=
  (readInsert (words [] (tokens text))).or
    ((readUpdate (words [] (tokens text))).or (readSelect (words [] (tokens text))))

/-! ## Executing statements -/

variable {V K : Type} [DecidableEq V] [DecidableEq K]

/-- The value of a column of a row.  The primary key of a table `t` is its column `t_id` (`table_key_name`,
traits.hpp:88); the table assigns it when a row is inserted without it.  A column that was not given a value
has none. -/
def cell (e : Row V K × K) (c : Text) : Option (Col V K) :=
  if c = keyName e.1.table then some (.key e.2) else (e.1.cols.find? (·.1 = c)).map (·.2)

/-- Inserting a row.  `fresh db t` is the key that is assigned.  A row that comes with a primary key keeps it,
unless there is another row with this key. -/
def execInsert (fresh : Log V K → Text → K) (db : Log V K) (table : Text) (columns : List Text)
    (bound : List (Col V K)) : Option (Log V K) :=
  if columns.length = bound.length ∧ columns.Nodup then
    match (columns.zip bound).find? (·.1 = keyName table) with
    | none => some (db ++ [(⟨table, columns.zip bound⟩, fresh db table)])
    | some (_, .key k) =>
      if db.any fun e => e.1.table = table && e.2 = k then none
      else some (db ++ [(⟨table, columns.zip bound⟩, k)])
    | some (_, .value _) => none
  else none

/-- Setting columns of a row. -/
def setCols (e : Row V K × K) (new : List (Text × Col V K)) : Row V K × K :=
  (⟨e.1.table, new ++ e.1.cols.filter fun c => c.1 ∉ new.map (·.1)⟩, e.2)

/-- `UPDATE … LIMIT 1`: the first row that meets the condition. -/
def updateFirst (p : Row V K × K → Bool) (f : Row V K × K → Row V K × K) : Log V K → Log V K
  | [] => []
  | e :: db => if p e then f e :: db else e :: updateFirst p f db

/-- Updating one row.  Simplification: the primary key itself is not updated. -/
def execUpdate (db : Log V K) (table : Text) (columns : List Text) (key : Text) (bound : List (Col V K)) :
    Option (Log V K) :=
  match bound.drop columns.length with
  | [x] =>
    if columns.Nodup ∧ keyName table ∉ columns then
      some (updateFirst (fun e => e.1.table = table && cell e key = some x)
        (fun e => setCols e (columns.zip bound)) db)
    else none
  | _ => none

/-- The rows that are looked at, by alias. -/
abbrev Env (V K : Type) := List (Text × (Row V K × K))

def cellOf (env : Env V K) (c : Text × Text) : Option (Col V K) :=
  (env.find? (·.1 = c.1)).bind fun e => cell e.2 c.2

/-- The columns are equal; one without a value is not equal to anything. -/
def same (env : Env V K) (c d : Text × Text) : Bool :=
  match cellOf env c, cellOf env d with
  | some x, some y => x = y
  | _, _ => false

/-- An inner join: every combination with a row of the table for which the columns are equal. -/
def evalJoin (db : Log V K) (envs : List (Env V K)) (j : Join) : List (Env V K) :=
  envs.flatMap fun env =>
    (db.filter fun e => e.1.table = j.table && same ((j.alias, e) :: env) j.left j.right).map fun e =>
      (j.alias, e) :: env

/-- Every column is one of a table already named. -/
def inScope (known : List Text) : List Join → Bool
  | [] => true
  | j :: js => decide (j.left.1 ∈ j.alias :: known ∧ j.right.1 ∈ j.alias :: known) &&
      inScope (j.alias :: known) js

/-- The rows of a query: for each the columns asked for. -/
def execSelect (db : Log V K) (columns : List (Text × Text)) (table : Text) (joins : List Join)
    (key : Text × Text) (bound : List (Col V K)) : Option (List (List ((Text × Text) × Option (Col V K)))) :=
  let aliases := table :: joins.map (·.alias)
  match bound with
  | [x] =>
    if aliases.Nodup ∧ inScope [table] joins = true ∧ key.1 ∈ aliases ∧ ∀ c ∈ columns, c.1 ∈ aliases then
      some ((((joins.foldl (evalJoin db) ((db.filter fun e => e.1.table = table).map fun e => [(table, e)])).filter
        fun env => cellOf env key = some x)).map fun env => columns.map fun c => (c, cellOf env c))
    else none
  | _ => none

/-- A statement that changes the database. -/
def change (fresh : Log V K → Text → K) (db : Log V K) (s : Text × List (Col V K)) : Option (Log V K) :=
  match read s.1 with
  | some (.insert t cs) => execInsert fresh db t cs s.2
  | some (.update t cs k) => execUpdate db t cs k s.2
  | _ => none

/-- Statements one after the other; one that does not compile or fails stops it. -/
def changes (fresh : Log V K → Text → K) : Log V K → List (Option (Text × List (Col V K))) → Option (Log V K)
  | db, [] => some db
  | db, s :: ss => (s.bind (change fresh db)).bind fun db' => changes fresh db' ss

/-- A query. -/
def query (db : Log V K) (s : Text × List (Col V K)) :
    Option (List (List ((Text × Text) × Option (Col V K)))) :=
  match read s.1 with
  | some (.select cs t js k) => execSelect db cs t js k s.2
  | _ => none

/-! ## Entities -/

mutual
/-- The type of a member. -/
def typeOf : Node V → Ty
  | .value n _ => .value n
  | .ent n t ms => .ent n t (typesOf ms)
  | .rows n _ => .rows n
def typesOf : List (Node V) → List Ty
  | [] => []
  | m :: ms => typeOf m :: typesOf ms
end

/-- `insert` (insert.hpp:53-117) with a `db_insert` that executes `statement::insert` on the database and returns
the key of the new row: the entity is inserted with the keys the database assigns. -/
def store (fresh : Log V K → Text → K) (db : Log V K) (e : Node V) : Log V K × Option K :=
  insert (fun db row => fresh db row.table) (fun k => k) [] db e

/-- `select` (select.hpp:40-60) by the primary key (`select_primary_key_name`,
statement/detail/table_alias_list.hpp:211-218) with a `db_select` that
executes `statement::select`. -/
def fetch (db : Log V K) (table : Text) (members : List Ty) (k : K) :
    Option (List (List ((Text × Text) × Option (Col V K)))) :=
  (select table members [(qualified table (keyName table), .key k)]).bind (query db)

/-- `update` (update.hpp:31-50 and 64-129) with a `db_update` that executes `statement::update`. -/
def modify (fresh : Log V K → Text → K) (db : Log V K) (table : Text) (members : List (Node V))
    (keys : List (KeyArg K)) : Option (Log V K) :=
  (update table members keys).bind fun u =>
    (updateStmt u.1 u.2.1 (u.2.2.map fun k => (k.1, .key k.2))).bind (change fresh db)

end Nbdl.SqlDb
