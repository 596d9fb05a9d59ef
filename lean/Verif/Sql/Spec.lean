import Verif.Sql.Model
/-!
# What the SQL helpers should do
-/
namespace Nbdl.Sql.Spec
open Sql

/-! ## Reading SQL text -/

inductive Tok where
  /-- a quoted identifier -/
  | ident (t : Text)
  /-- a placeholder -/
  | hole
  | char (c : Char)
  deriving DecidableEq, Repr

/-- Splits a statement into quoted identifiers, placeholders and other characters.  The first argument is the
part of an identifier that has been read. -/
def lex : Option Text → Text → List Tok
  | none, [] => []
  | some _, [] => []
  | none, c :: t =>
    if c = '"' then lex (some []) t
    else if c = '?' then .hole :: lex none t
    else .char c :: lex none t
  | some a, c :: t => if c = '"' then .ident a :: lex none t else lex (some (a ++ [c])) t

def tokens (t : Text) : List Tok := lex none t

/-- The characters of a keyword. -/
def kw (s : String) : List Tok := s.toList.map .char

/-- Parts separated by something. -/
def sep (d : List Tok) : List (List Tok) → List Tok
  | [] => []
  | [x] => x
  | x :: xs => x ++ d ++ sep d xs

def holes (ts : List Tok) : Nat := ts.count .hole

/-- The name can stand between quotes. -/
def Clean (t : Text) : Prop := '"' ∉ t

/-- `column = ?` -/
def equation (column : List Tok) : List Tok := column ++ kw "=" ++ [.hole]

/-- A condition on all the columns. -/
def conjunction (columns : List (List Tok)) : List Tok := sep (kw " AND ") (columns.map equation)

/-! ## The tables and columns of a nested entity type -/

/-- Following the named one-to-one members leads to an entity type with this table and these members. -/
inductive EntAt (table : Text) (members : List Ty) : List Text → Text → List Ty → Prop where
  | root : EntAt table members [] table members
  | child {path t ms name t' ms'} : EntAt table members path t ms → .ent name t' ms' ∈ ms →
    EntAt table members (path ++ [name]) t' ms'

/-- The alias of the table a path leads to. -/
def aliasPath (table : Text) (path : List Text) : Text := path.foldl (fun a n => a ++ '.' :: n) table

def memberName : Ty → Text
  | .value n | .ent n _ _ | .rows n => n

mutual
/-- What C++ guarantees of names: members of one struct have different names, and a name has no dot. -/
def Named : Ty → Prop
  | .value n => '.' ∉ n
  | .rows n => '.' ∉ n
  | .ent n _ ms => '.' ∉ n ∧ (ms.map memberName).Nodup ∧ NamedAll ms
def NamedAll : List Ty → Prop
  | [] => True
  | m :: ms => Named m ∧ NamedAll ms
end

/-- The joins a query over a nested entity needs: one for every nested entity, of the table of its type, under
the alias of the path, on the key the parent has for it. -/
def Needed (table : Text) (members : List Ty) (a : Alias) : Prop :=
  ∃ path t ms ms', EntAt table members path t ms ∧ .ent a.member a.table ms' ∈ ms ∧
    a.alias = aliasPath table (path ++ [a.member]) ∧ a.parent = aliasPath table path

/-- Every join refers only to tables that are already known. -/
def Introduced (known : List Text) : List Alias → Prop
  | [] => True
  | a :: l => a.parent ∈ known ∧ Introduced (a.alias :: known) l

/-- The tokens of a qualified column. -/
def column (c : Text × Text) : List Tok := [.ident c.1, .char '.', .ident c.2]

/-- The tokens of a join. -/
def join (a : Alias) : List Tok :=
  kw " JOIN " ++ [.ident a.table] ++ kw " AS " ++ [.ident a.alias] ++ kw " ON " ++
    column (a.parent, a.member ++ "_id".toList) ++ kw " = " ++ column (a.alias, a.table ++ "_id".toList)

/-! ## Inserted rows -/

variable {V K : Type}

mutual
/-- An entity whose containers hold entities. -/
def Proper : Node V → Prop
  | .ent _ _ ms => ProperMembers ms
  | _ => False
def ProperMembers : List (Node V) → Prop
  | [] => True
  | .value .. :: ms => ProperMembers ms
  | .ent n t ms' :: ms => Proper (.ent n t ms') ∧ ProperMembers ms
  | .rows _ es :: ms => ProperAll es ∧ ProperMembers ms
def ProperAll : List (Node V) → Prop
  | [] => True
  | e :: es => Proper e ∧ ProperAll es
end

mutual
/-- The number of entities in an entity, itself included. -/
def size : Node V → Nat
  | .ent _ _ ms => 1 + sizeMembers ms
  | _ => 0
def sizeMembers : List (Node V) → Nat
  | [] => 0
  | .value .. :: ms => sizeMembers ms
  | .ent n t ms' :: ms => size (.ent n t ms') + sizeMembers ms
  | .rows _ es :: ms => sizeAll es + sizeMembers ms
def sizeAll : List (Node V) → Nat
  | [] => 0
  | e :: es => size e + sizeAll es
end

/-- The plain columns of an entity. -/
def plain (ms : List (Node V)) : List (Text × Col V K) :=
  ms.filterMap fun | .value n v => some (n, .value v) | _ => none

mutual
/-- The entity is stored under the id: there is a row with this id, with the given foreign keys, the ids under
which the children are stored and the plain values; and all elements of its containers are stored with its id
as foreign key. -/
def Stored (log : Log V K) (keys : List (Text × Col V K)) (id : K) : Node V → Prop
  | .ent _ table ms => ∃ ids, (⟨table, keys ++ ids ++ plain ms⟩, id) ∈ log ∧
      StoredChildren log ids ms ∧ StoredRows log table id ms
  | _ => False
def StoredChildren (log : Log V K) (ids : List (Text × Col V K)) : List (Node V) → Prop
  | [] => ids = []
  | .ent name t ms' :: ms => ∃ k rest, ids = (keyName name, .key k) :: rest ∧
      Stored log [] k (.ent name t ms') ∧ StoredChildren log rest ms
  | .value .. :: ms => StoredChildren log ids ms
  | .rows .. :: ms => StoredChildren log ids ms
def StoredRows (log : Log V K) (table : Text) (id : K) : List (Node V) → Prop
  | [] => True
  | .rows _ es :: ms => StoredAll log table id es ∧ StoredRows log table id ms
  | .value .. :: ms => StoredRows log table id ms
  | .ent .. :: ms => StoredRows log table id ms
def StoredAll (log : Log V K) (table : Text) (id : K) : List (Node V) → Prop
  | [] => True
  | e :: es => (∃ k, Stored log [(keyName table, .key id)] k e) ∧ StoredAll log table id es
end

/-- Every key in the columns is the id of a row of the log. -/
def KeysIn (log : Log V K) (cols : List (Text × Col V K)) : Prop :=
  ∀ name k, (name, .key k) ∈ cols → ∃ r, (r, k) ∈ log

/-- Every row refers to rows inserted before it. -/
def RefsOk (log : Log V K) : Prop :=
  ∀ i row id, log[i]? = some (row, id) → KeysIn (log.take i) row.cols

end Nbdl.Sql.Spec
