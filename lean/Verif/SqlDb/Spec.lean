import Verif.SqlDb.Model
/-!
# Storing and reading back entities
-/
namespace Nbdl.SqlDb.Spec
open Sql Sql.Spec SqlDb

variable {V K : Type}

/-- Following the named one-to-one members leads to an entity of this table with these members. -/
inductive NodeAt (table : Text) (members : List (Node V)) : List Text → Text → List (Node V) → Prop where
  | root : NodeAt table members [] table members
  | child {path t ms name t' ms'} : NodeAt table members path t ms → .ent name t' ms' ∈ ms →
    NodeAt table members (path ++ [name]) t' ms'

/-- The names of the columns for the ids of nested entities. -/
def childKeys (ms : List (Node V)) : List Text := ms.filterMap fun | .ent n _ _ => some (n ++ "_id".toList) | _ => none
/-- The names of the plain columns. -/
def plainNames (ms : List (Node V)) : List Text := ms.filterMap fun | .value n _ => some n | _ => none

def nodeName : Node V → Text
  | .value n _ | .ent n _ _ | .rows n _ => n

mutual
/-- An entity that can be stored by these statements: every table has a column, no two columns of a table have
the same name, and none has the name of the primary key.  Besides, names are what C++ identifiers can be: no
quotes and no dots, and members of one struct have different names.
`keys` are the names of the foreign keys. -/
def Good (keys : List Text) : Node V → Prop
  | .ent _ t ms => Clean t ∧ (∀ n ∈ ms.map nodeName, Clean n ∧ '.' ∉ n) ∧ (ms.map nodeName).Nodup ∧
      keys ++ childKeys ms ++ plainNames ms ≠ [] ∧ (keys ++ childKeys ms ++ plainNames ms).Nodup ∧
      t ++ "_id".toList ∉ keys ++ childKeys ms ++ plainNames ms ∧ GoodMembers t ms
  | _ => False
def GoodMembers (t : Text) : List (Node V) → Prop
  | [] => True
  | .value .. :: ms => GoodMembers t ms
  | .ent n t' ms' :: ms => Good [] (.ent n t' ms') ∧ GoodMembers t ms
  | .rows _ es :: ms => GoodAll t es ∧ GoodMembers t ms
def GoodAll (t : Text) : List (Node V) → Prop
  | [] => True
  | e :: es => Good [t ++ "_id".toList] e ∧ GoodAll t es
end

/-- No two rows of a table have the same key. -/
def Keyed (db : Log V K) : Prop := (db.map fun e => (e.1.table, e.2)).Nodup

/-- The key that is assigned is a new one in its table. -/
def Fresh (fresh : Log V K → Text → K) : Prop := ∀ db t, ∀ e ∈ db, e.1.table = t → e.2 ≠ fresh db t

/-- The row has for every plain member of the entity and of its nested entities, under the name of the path to
it, its value, and nothing else. -/
def Shows (table : Text) (members : List (Node V)) (row : List ((Text × Text) × Option (Col V K))) : Prop :=
  (row.map (·.1)).Nodup ∧
  ∀ c, c ∈ row ↔ ∃ path t ms name v, NodeAt table members path t ms ∧ .value name v ∈ ms ∧
    c = ((aliasPath table path, name), some (.value v))

/-- The value of a plain member. -/
def valueOf (members : List (Node V)) (name : Text) : Option V :=
  members.findSome? fun | .value n v => if n = name then some v else none | _ => none

/-- What the rows of a database are after the row of a table with a key got new values for the plain members: the
same rows in the same order, with the same values in all columns but these. -/
def Changed (db db' : Log V K) (table : Text) (k : K) (members : List (Node V)) : Prop :=
  db'.length = db.length ∧
  ∀ (i : Nat) (e : Row V K × K), db[i]? = some e → ∃ e' : Row V K × K, db'[i]? = some e' ∧
    e'.1.table = e.1.table ∧ e'.2 = e.2 ∧
    (¬ (e.1.table = table ∧ e.2 = k) → e' = e) ∧
    (e.1.table = table ∧ e.2 = k → ∀ c, cell e' c = ((valueOf members c).map .value).or (cell e c))

end Nbdl.SqlDb.Spec
