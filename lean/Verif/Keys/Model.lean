import Verif.Sql.Model
/-!
# Keys of entities

Models `/repo/include/nbdl/key.hpp` and where `/repo/include/nbdl/sql_db/insert.hpp` makes keys
(`primary_key`, sql_db/traits.hpp:28-36).

Simplifications.  Keys are made from integers only (the constructor takes whatever converts to the
value, floating point numbers included).  The database is the sequence of ids it gives.
-/
namespace Nbdl.Keys
open Sql

/-- `key_impl<T, uint32_t>`, key.hpp:26-46.  The entity is a phantom parameter. -/
structure Key (T : Type) where
  value : BitVec 32
  deriving DecidableEq, Repr

/-- The constructor, key.hpp:31-34: the value is initialised with parentheses, so an integer of any
type is converted, modulo 2^32. -/
def make (T : Type) (n : Int) : Key T := ⟨BitVec.ofInt 32 n⟩

/-- `operator==`, key.hpp:50-54 -/
def equal {T : Type} (x y : Key T) : Bool := x.value == y.value

/-- What can be assigned to a key: a number or a key of the same entity. -/
inductive Source (T : Type)
  | number (n : Int) | key (k : Key T)

/-- `operator=`, key.hpp:38-44: for a number the declared operator is chosen, which is const and
returns a pair of the type and the number; for a key the implicit copy assignment.  The key after the
assignment. -/
def assign {T : Type} (k : Key T) : Source T → Key T
  | .number _ => k
  | .key k' => k'

/-- Assignments one after the other. -/
def assignAll {T : Type} (k : Key T) (ss : List (Source T)) : Key T := ss.foldl assign k

/-- The id of the row a key names when it is written to the database: its value as an unsigned number. -/
def named (k : BitVec 32) : Int := k.toNat

/-- A column as it is in the database. -/
def colIn {V : Type} : Col V (BitVec 32) → Col V Int
  | .value v => .value v
  | .key k => .key (named k)

/-- A row as it is in the database. -/
def rowIn {V : Type} (r : Row V (BitVec 32)) : Row V Int := ⟨r.table, r.cols.map fun c => (c.1, colIn c.2)⟩

/-- `insert` of an entity with keys of 32 bits, insert.hpp:52-117, into an empty database: `insert_id`
(88) is made from what `db_insert` returns; `ids n` is the id the database gives to the `n`th row. -/
def insertRun {V : Type} (ids : Nat → Int) (e : Node V) : Log V (BitVec 32) × Option (BitVec 32) :=
  insert (fun log _ => (make Unit (ids log.length)).value) (fun k => k) [] [] e

/-- What is in the database afterwards: the rows with the ids it has given them. -/
def database {V : Type} (ids : Nat → Int) (e : Node V) : Log V Int :=
  (insertRun ids e).1.zipIdx.map fun x => (rowIn x.1.1, ids x.2)

end Nbdl.Keys
