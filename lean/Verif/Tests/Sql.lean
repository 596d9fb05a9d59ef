import Verif.Sql.Model
/-!
# The model against the project's own tests: SQL

See `Verif/Tests/Bytes.lean`.
-/
namespace Nbdl.Tests.Sql

open Nbdl Sql

/-- Characters of a text. -/
def tx (s : String) : Text := s.toList

/-! ## test/nbdl/sql_db/statement -/

/-- statement/insert.cpp; values are numbered: 5 is the text -/
example : insertStmt (tx "my_table") [(tx "foo", 42), (tx "bar", 5), (tx "baz", 1042)]
  = some (tx "INSERT INTO \"my_table\" (\"foo\",\"bar\",\"baz\") VALUES (?,?,?);", [42, 5, 1042]) := by
  decide +kernel

/-- statement/select.cpp -/
example : ((sumJoin (tx ",") [tx "\"foo\".\"bar\"", tx "\"foo\".\"baz\"", tx "\"moo\".\"bar\"",
      tx "\"moo\".\"baz\""]).bind fun cs =>
    selectStmt (tx "my_table") cs (tx " JOINS") [(tx "\"my_table\".\"my_table_id\"", 5)])
  = some (tx ("SELECT \"foo\".\"bar\",\"foo\".\"baz\",\"moo\".\"bar\",\"moo\".\"baz\" FROM \"my_table\" JOINS "
      ++ "WHERE \"my_table\".\"my_table_id\"=?;"), [5]) := by decide +kernel

/-- statement/update.cpp -/
example : updateStmt (tx "my_table") [(tx "foo", 42), (tx "bar", 5), (tx "baz", 1042)] [(tx "my_table_id", 1)]
  = some (tx "UPDATE \"my_table\" SET \"foo\"=?,\"bar\"=?,\"baz\"=? WHERE \"my_table_id\"=? LIMIT 1;",
      [42, 5, 1042, 1]) := by decide +kernel

/-! ## test/nbdl/sql_db/insert.cpp -/

/-- `db_insert`, insert.cpp:97-107: ids from 1 -/
def db (log : Log Nat Nat) (_ : Row Nat Nat) : Nat := log.length + 1

/-- What the statements say, in the order of insertion: the table and the columns. -/
def ran (n : Sql.Node Nat) : List (Text × List (Text × Nat)) × Option Nat :=
  let r := insert db id [] [] n
  (r.1.map fun e => (e.1.table, e.1.cols.map fun c => (c.1, match c.2 with | .value v => v | .key k => k)), r.2)

/-- A `foo` -/
def foo (name : String) (v : Nat) : Sql.Node Nat := .ent (tx name) (tx "foo") [.value (tx "foo_value") v]

/-- insert.cpp:118-133 -/
example : ran (foo "" 42) = ([(tx "foo", [(tx "foo_value", 42)])], some 1) := by decide +kernel

/-- insert.cpp:135-162; 5 is the text `moo` -/
example : ran (.ent [] (tx "baz") [.value (tx "baz_value") 7, foo "baz_foo" 42,
    .ent (tx "baz_bar") (tx "bar") [.value (tx "bar_value") 5, foo "bar_foo" 82]])
  = ([(tx "foo", [(tx "foo_value", 42)]), (tx "foo", [(tx "foo_value", 82)]),
      (tx "bar", [(tx "bar_foo_id", 2), (tx "bar_value", 5)]),
      (tx "baz", [(tx "baz_foo_id", 1), (tx "baz_bar_id", 3), (tx "baz_value", 7)])], some 4) := by decide +kernel

/-- insert.cpp:164-181 -/
example : ran (.ent [] (tx "boo") [.rows (tx "foo_list") [foo "" 101, foo "" 221, foo "" 123]])
  = ([(tx "boo", []), (tx "foo", [(tx "boo_id", 1), (tx "foo_value", 101)]),
      (tx "foo", [(tx "boo_id", 1), (tx "foo_value", 221)]),
      (tx "foo", [(tx "boo_id", 1), (tx "foo_value", 123)])], some 1) := by decide +kernel

/-! ## test/nbdl/sql_db/select.cpp and update.cpp -/

/-- select.cpp:113-134: the columns and the joins -/
example : columnsClause (tx "bar") [.value (tx "bar_value"), .ent (tx "bar_foo") (tx "foo") [.value (tx "foo_value")]]
    = some (tx "\"bar\".\"bar_value\",\"bar.bar_foo\".\"foo_value\"")
  ∧ joinClauses (tx "bar") [.value (tx "bar_value"), .ent (tx "bar_foo") (tx "foo") [.value (tx "foo_value")]]
    = some (tx " JOIN \"foo\" AS \"bar.bar_foo\" ON \"bar\".\"bar_foo_id\" = \"bar.bar_foo\".\"foo_id\"") := by
  decide +kernel

/-- update.cpp:102-122 -/
example : update (V := Nat) (K := Nat) (tx "foo") [.value (tx "foo_value") 42] [⟨keyName (tx "foo"), 1, some (tx "foo")⟩]
  = some ((tx "foo" : Text), [(tx "foo_value", .value 42)], [(tx "foo_id", 1)]) := rfl

end Nbdl.Tests.Sql
