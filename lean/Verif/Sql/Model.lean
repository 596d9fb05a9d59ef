import Verif.Common
/-!
# The SQL helpers

Models `/repo/include/nbdl/sql_db/insert.hpp`, `select.hpp`, `update.hpp`, `traits.hpp`,
`statement/{insert,select,update}.hpp`, `statement/detail/table_alias_list.hpp` and
`detail/string_sum.hpp`.  Texts are lists of characters.  `none` is a program that does not compile.
-/
namespace Nbdl.Sql

abbrev Text := List Char

/-! ## Statements -/

/-- `identifier_quote`, detail/string_sum.hpp:33-39 -/
def quote (t : Text) : Text := '"' :: (t ++ ['"'])

/-- `column_name_list`, statement/insert.hpp:36-44 -/
def columnNameList : List Text → Option Text
  | [] => none
  | n :: ns => some ("\"".toList ++ n ++ ns.flatMap (fun m => "\",\"".toList ++ m) ++ "\"".toList)

/-- `placeholder_list`, statement/insert.hpp:46-55 -/
def placeholderList (count : Nat) : Text :=
  "?".toList ++ (List.replicate (count - 1) ",?".toList).flatten

/-- `statement::insert`, statement/insert.hpp:58-74: the statement and the values bound to it. -/
def insertStmt {V : Type} (table : Text) (columns : List (Text × V)) : Option (Text × List V) :=
  (columnNameList (columns.map (·.1))).map fun names =>
    ("INSERT INTO \"".toList ++ table ++ "\" (".toList ++ names ++ ") VALUES (".toList
      ++ placeholderList columns.length ++ ");".toList, columns.map (·.2))

/-- `column_value_list`, statement/update.hpp:37-45 -/
def columnValueList : List Text → Option Text
  | [] => none
  | n :: ns => some ("\"".toList ++ n ++ ns.flatMap (fun m => "\"=?,\"".toList ++ m) ++ "\"=?".toList)

/-- `statement::update`, statement/update.hpp:48-70 -/
def updateStmt {V : Type} (table : Text) (columns keys : List (Text × V)) : Option (Text × List V) :=
  (columnValueList (columns.map (·.1))).bind fun cs =>
    (columnValueList (keys.map (·.1))).map fun ks =>
      ("UPDATE \"".toList ++ table ++ "\" SET ".toList ++ cs ++ " WHERE ".toList ++ ks ++ " LIMIT 1;".toList,
        columns.map (·.2) ++ keys.map (·.2))

/-- `criteria_list`, statement/select.hpp:31-39 -/
def criteriaList : List Text → Option Text
  | [] => none
  | k :: ks => some (k ++ ks.flatMap (fun m => "=?,".toList ++ m) ++ "=?".toList)

/-- `statement::select`, statement/select.hpp:42-60 -/
def selectStmt {V : Type} (table columns joins : Text) (keys : List (Text × V)) : Option (Text × List V) :=
  (criteriaList (keys.map (·.1))).map fun ks =>
    ("SELECT ".toList ++ columns ++ " FROM ".toList ++ quote table ++ joins ++ " WHERE ".toList ++ ks
      ++ ";".toList, keys.map (·.2))

/-! ## Entity types -/

/-- A member of an entity, or an entity (its own name is then not used). -/
inductive Ty where
  /-- a column -/
  | value (name : Text)
  /-- a nested entity (one-to-one) -/
  | ent (name table : Text) (members : List Ty)
  /-- a container of entities (one-to-many) -/
  | rows (name : Text)

/-- `member_key_name`, `table_key_name`, traits.hpp:87-91 -/
def keyName (t : Text) : Text := t ++ "_id".toList

/-- `concat_table_alias` with one name, table_alias_list.hpp:50-53 -/
def joinAlias (pre name : Text) : Text := pre ++ '.' :: name

/-- An element of `table_alias_list`: the member with the table of its type, the alias and the alias of
the parent. -/
structure Alias where
  member : Text
  table : Text
  alias : Text
  parent : Text
  deriving DecidableEq, Repr

/-- The first part of `member_alias_list_impl::f`, table_alias_list.hpp:66-71: the child members
(`members_child`, traits.hpp:78-79). -/
def aliasLevel (pre : Text) : List Ty → List Alias
  | [] => []
  | .ent name table _ :: ms => ⟨name, table, joinAlias pre name, pre⟩ :: aliasLevel pre ms
  | _ :: ms => aliasLevel pre ms

mutual
/-- `member_alias_list_impl::f` for the type of one member, table_alias_list.hpp:55-80 -/
def aliasOf (pre : Text) : Ty → List Alias
  | .ent name _ ms => aliasLevel (joinAlias pre name) ms ++ aliasRec (joinAlias pre name) ms
  | _ => []
/-- The second part of `member_alias_list_impl::f`, table_alias_list.hpp:72-78 -/
def aliasRec (pre : Text) : List Ty → List Alias
  | [] => []
  | m :: ms => aliasOf pre m ++ aliasRec pre ms
end

/-- `table_alias_list`, table_alias_list.hpp:85-93 -/
def tableAliases (table : Text) (members : List Ty) : List Alias :=
  aliasLevel table members ++ aliasRec table members

/-- `aliased_column_name_list`, table_alias_list.hpp:107-113: alias and name of the columns
(`members_value`, traits.hpp:84-85). -/
def valueColumns (alias : Text) : List Ty → List (Text × Text)
  | [] => []
  | .value name :: ms => (alias, name) :: valueColumns alias ms
  | _ :: ms => valueColumns alias ms

/-- The first part of `aliased_column_names_impl::f`, table_alias_list.hpp:126-131 -/
def columnLevel (pre : Text) : List Ty → List (Text × Text)
  | [] => []
  | .ent name _ ms' :: ms => valueColumns (joinAlias pre name) ms' ++ columnLevel pre ms
  | _ :: ms => columnLevel pre ms

mutual
/-- `aliased_column_names_impl::f` for the type of one member -/
def columnsOf (pre : Text) : Ty → List (Text × Text)
  | .ent name _ ms => columnLevel (joinAlias pre name) ms ++ columnsRec (joinAlias pre name) ms
  | _ => []
/-- The second part, table_alias_list.hpp:132-138 -/
def columnsRec (pre : Text) : List Ty → List (Text × Text)
  | [] => []
  | m :: ms => columnsOf pre m ++ columnsRec pre ms
end

/-- `aliased_column_names`, table_alias_list.hpp:145-155 -/
def aliasedColumns (table : Text) (members : List Ty) : List (Text × Text) :=
  valueColumns table members ++ (columnLevel table members ++ columnsRec table members)

/-- `concat_table_alias_member_name`, table_alias_list.hpp:98-105 -/
def qualified (alias name : Text) : Text := quote alias ++ '.' :: quote name

/-- `string_sum_join`, string_sum.hpp:25-29: at least one part is needed. -/
def sumJoin (d : Text) : List Text → Option Text
  | [] => none
  | x :: xs => some (x ++ xs.flatMap (d ++ ·))

/-- `columns_clause`, table_alias_list.hpp:160-166 -/
def columnsClause (table : Text) (members : List Ty) : Option Text :=
  sumJoin ",".toList ((aliasedColumns table members).map fun c => qualified c.1 c.2)

/-- `join_clause`, table_alias_list.hpp:173-185 -/
def joinClause (a : Alias) : Text :=
  " JOIN ".toList ++ quote a.table ++ " AS ".toList ++ quote a.alias ++ " ON ".toList
    ++ qualified a.parent (keyName a.member) ++ " = ".toList ++ qualified a.alias (keyName a.table)

/-- `join_clauses`, table_alias_list.hpp:187-193 -/
def joinClauses (table : Text) (members : List Ty) : Option Text :=
  sumJoin " ".toList ((tableAliases table members).map joinClause)

/-- A one-to-many member (`members_multirow`, traits.hpp:81-82) -/
def Ty.isRows : Ty → Bool
  | .rows _ => true
  | _ => false

/-- `select<Entity>`, select.hpp:40-60, with `statement::select` as the function that is called: it does not
compile if the entity has one-to-many members. -/
def select {V : Type} (table : Text) (members : List Ty) (keys : List (Text × V)) : Option (Text × List V) :=
  if members.any Ty.isRows then none
  else
    (columnsClause table members).bind fun cols =>
      (joinClauses table members).bind fun joins => selectStmt table cols joins keys

/-! ## Inserting entities -/

/-- An entity value or a member of one. -/
inductive Node (V : Type) where
  | value (name : Text) (v : V)
  | ent (name table : Text) (members : List (Node V))
  | rows (name : Text) (elems : List (Node V))

/-- The value of a column. -/
inductive Col (V K : Type) where
  | value (v : V)
  | key (k : K)
  deriving DecidableEq, Repr

structure Row (V K : Type) where
  table : Text
  cols : List (Text × Col V K)
  deriving DecidableEq, Repr

/-- The rows inserted so far, each with the id that `db_insert` returned for it. -/
abbrev Log (V K : Type) := List (Row V K × K)

/-- The values map, insert.hpp:77-86 -/
def valueCols {V K : Type} : List (Node V) → List (Text × Col V K)
  | [] => []
  | .value name v :: ms => (name, .value v) :: valueCols ms
  | _ :: ms => valueCols ms

variable {V K : Type}

mutual
/-- `insert` of an entity, insert.hpp:53-117: the log and the new primary key.  `db log row` is the id
`db_insert` returns.  `moved k` is what is left of a key that has been moved from.
Simplification: the children are inserted from left to right (the order of evaluation of the arguments of
`make_tuple`, 67-75, is unspecified). -/
def insert (db : Log V K → Row V K → K) (moved : K → K) (keys : List (Text × Col V K)) (log : Log V K) :
    Node V → Log V K × Option K
  | .ent _ table ms =>
    let c := insertChildren db moved log ms
    let row : Row V K := ⟨table, keys ++ c.2 ++ valueCols ms⟩
    let id := db c.1 row
    (insertMulti db moved table id (c.1 ++ [(row, id)]) ms, some id)
  | _ => (log, none)
/-- The one-to-one members, insert.hpp:66-75 -/
def insertChildren (db : Log V K → Row V K → K) (moved : K → K) (log : Log V K) :
    List (Node V) → Log V K × List (Text × Col V K)
  | [] => (log, [])
  | .ent name table ms' :: ms =>
    let r := insert db moved [] log (.ent name table ms')
    let rest := insertChildren db moved r.1 ms
    (rest.1, (r.2.toList.map fun k => (keyName name, .key k)) ++ rest.2)
  | .value .. :: ms => insertChildren db moved log ms
  | .rows .. :: ms => insertChildren db moved log ms
/-- The one-to-many members, insert.hpp:100-113 -/
def insertMulti (db : Log V K → Row V K → K) (moved : K → K) (table : Text) (id : K) (log : Log V K) :
    List (Node V) → Log V K
  | [] => log
  | .rows _ es :: ms =>
    insertMulti db moved table id (insertRows db moved table id log es) ms
  | .value .. :: ms => insertMulti db moved table id log ms
  | .ent .. :: ms => insertMulti db moved table id log ms
/-- `insert` of a container, insert.hpp:119-134: the tuple with the foreign key is forwarded as an rvalue for
every element, so `concat` (92-95) moves the key out of it each time. -/
def insertRows (db : Log V K → Row V K → K) (moved : K → K) (table : Text) (id : K) (log : Log V K) :
    List (Node V) → Log V K
  | [] => log
  | e :: es =>
    insertRows db moved table (moved id) (insert db moved [(keyName table, .key id)] log e).1 es
end

/-! ## Updating entities -/

/-- A key passed to `update`: its name, its value and, if it is a `primary_key<T>`, the table of `T`. -/
structure KeyArg (K : Type) where
  name : Text
  value : K
  primaryOf : Option Text
  deriving DecidableEq, Repr

/-- The predicate of the static assertion, update.hpp:37-42.  The two conditions are operands of a comma
operator (the parenthesis of `hana::and_` is closed after the first one), so only the second one counts. -/
def isPrimaryKey (table : Text) (k : KeyArg K) : Bool := k.primaryOf == some table

/-- A nested entity or a container (`members_child`, `members_multirow`, traits.hpp:78-82) -/
def Node.isNested : Node V → Bool
  | .value .. => false
  | _ => true

/-- `update`, update.hpp:31-50 and 64-129: the call of `db_update`, with the table, the columns and the keys. -/
def update (table : Text) (members : List (Node V)) (keys : List (KeyArg K)) :
    Option (Text × List (Text × Col V K) × List (Text × K)) :=
  if keys.any (isPrimaryKey table) then
    if members.any Node.isNested then none
    else some (table, valueCols members, keys.map fun k => (k.name, k.value))
  else none

end Nbdl.Sql
