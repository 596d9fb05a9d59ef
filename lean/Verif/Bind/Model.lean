import Verif.Base64.Props
/-!
# Bindable types and the JSON binder

Models `/repo/include/nbdl/binder/jsoncpp.hpp` with `/repo/include/nbdl/bind_sequence.hpp`,
`/repo/include/nbdl/bind_map.hpp`, `/repo/include/nbdl/bind_variant.hpp`,
`/repo/include/nbdl/detail/filter_empties.hpp` and the variant binding of
`/repo/include/nbdl/variant.hpp` (175-200).

JSON text itself is the business of the JsonCpp library; the model reads and writes `Json::Value`s.
-/
namespace Nbdl.Bind

abbrev Name := List Byte

mutual
/-- The C++ types that can be bound.  Of the arithmetic types only `int`, `unsigned` and enumerations
can be read: for `bool`, `char`, `double` and the other widths `bind_member` (jsoncpp.hpp:87-103) does
not compile. -/
inductive Ty where
  /-- an empty class (bound as a sequence without members); tuples of empty classes are empty too -/
  | empty
  | uint
  | int
  /-- an unscoped enumeration; simplification: its values are those of `int` -/
  | enum
  /-- a `String` -/
  | str
  /-- a resizable `ContiguousByteContainer` of `unsigned char` -/
  | buf
  /-- a `ContiguousByteContainer` of `n` bytes, like `nbdl::uid` -/
  | fixed (n : Nat)
  /-- another `Container`, with `insert`; simplification: a sequence, not a set -/
  | cont (t : Ty)
  /-- a `BindableSequence` that is not a map -/
  | seq (ts : Tys)
  /-- a `BindableMap`: an entity -/
  | record (ts : Tys)
  /-- a `BindableVariant`: its first alternative and the others -/
  | var (t : Ty) (ts : Tys)
/-- Members or alternatives; the names are used in records only. -/
inductive Tys where
  | nil
  | cons (name : Name) (t : Ty) (ts : Tys)
end

/-- `std::is_empty` -/
def Ty.isEmpty : Ty → Bool
  | .empty => true
  | _ => false

mutual
/-- The values of a type. -/
@[reducible] def denote : Ty → Type
  | .empty => Unit
  | .uint => BitVec 32
  | .int => BitVec 32
  | .enum => BitVec 32
  | .str => List Byte
  | .buf => List Byte
  | .fixed n => Fin n → Byte
  | .cont t => List (denote t)
  | .seq ts => members ts
  | .record ts => members ts
  | .var t ts => denote t ⊕ alts ts
/-- The values of several members. -/
@[reducible] def members : Tys → Type
  | .nil => Unit
  | .cons _ t ts => denote t × members ts
/-- The values of one of several alternatives. -/
@[reducible] def alts : Tys → Type
  | .nil => Empty
  | .cons _ t ts => denote t ⊕ alts ts
end

mutual
/-- Value initialisation, `T value{}`. -/
def init : (t : Ty) → denote t
  | .empty => ()
  | .uint => 0#32
  | .int => 0#32
  | .enum => 0#32
  | .str => []
  | .buf => []
  | .fixed _ => fun _ => 0#8
  | .cont _ => []
  | .seq ts => initAll ts
  | .record ts => initAll ts
  | .var t _ => .inl (init t)
def initAll : (ts : Tys) → members ts
  | .nil => ()
  | .cons _ t ts => (init t, initAll ts)
end

/-- Number of alternatives. -/
def Tys.length : Tys → Nat
  | .nil => 0
  | .cons _ _ ts => ts.length + 1

/-- Number of members left by `filter_empties`, detail/filter_empties.hpp:31-46 -/
def Tys.count : Tys → Nat
  | .nil => 0
  | .cons _ t ts => if t.isEmpty then ts.count else ts.count + 1

/-- `Json::Value`.  Simplification: `num` is any integral number, `real` any other one, and an object is a
list of its members. -/
inductive Json where
  | null
  | bool (b : Bool)
  | num (n : Int)
  | real
  | str (s : List Byte)
  | arr (js : List Json)
  | obj (ms : List (Name × Json))

/-! ## Writing, jsoncpp.hpp:189-259 -/

/-- `bind_buffer`, jsoncpp.hpp:206-211.  Simplification: encoding 2^29 bytes or more is undefined or
loses bytes (see Base64/Long.lean); nothing is written here then. -/
def encodeText (b : List Byte) : List Byte :=
  match Base64.encode false b with
  | .ok t => t
  | .ub => []

/-- `bind_sequence` without members, with one and with more, jsoncpp.hpp:236-258 -/
def pack : List Json → Json
  | [] => .null
  | [j] => j
  | js => .arr js

/-- A variant, jsoncpp.hpp:290-296 and variant.hpp:192-199: its index, and the value unless it is empty. -/
def altJson (t : Ty) (i : Nat) (j : Json) : Json := if t.isEmpty then .num i else .arr [.num i, j]

mutual
/-- `bind_jsoncpp` with a `writer` on a null value, jsoncpp.hpp:189-328. -/
def write : (t : Ty) → denote t → Json
  | .empty, _ => .null
  | .uint, n => .num n.toNat
  | .int, n => .num n.toInt
  | .enum, n => .num n.toInt
  | .str, s => .str s
  | .buf, b => .str (encodeText b)
  | .fixed _, b => .str (encodeText (List.ofFn b))
  -- 213-222: without elements nothing is appended and the value stays null
  | .cont t, vs => if vs.isEmpty then .null else .arr (vs.map (write t))
  | .seq ts, v => pack (writeMany ts v)
  | .record .nil, _ => .null
  | .record (.cons n t ts), v => .obj ((n, write t v.1) :: writeNamed ts v.2)
  | .var t _, .inl v => altJson t 0 (write t v)
  | .var _ ts, .inr v => writeAlts ts 1 v
/-- The members that are not empty. -/
def writeMany : (ts : Tys) → members ts → List Json
  | .nil, _ => []
  | .cons _ t ts, v => if t.isEmpty then writeMany ts v.2 else write t v.1 :: writeMany ts v.2
/-- `bind_named_member` for each member, jsoncpp.hpp:230-234 and 264-276 -/
def writeNamed : (ts : Tys) → members ts → List (Name × Json)
  | .nil, _ => []
  | .cons n t ts, v => (n, write t v.1) :: writeNamed ts v.2
/-- The alternatives from the `i`-th on. -/
def writeAlts : (ts : Tys) → Nat → alts ts → Json
  | .cons _ t _, i, .inl v => altJson t i (write t v)
  | .cons _ _ ts, i, .inr v => writeAlts ts (i + 1) v
end

/-! ## Reading, jsoncpp.hpp:32-187 -/

/-- `asUInt`, with the range check of JsonCpp -/
def asUInt : Json → Option (BitVec 32)
  | .num n => if 0 ≤ n ∧ n < 2 ^ 32 then some (BitVec.ofInt 32 n) else none
  | _ => none

/-- `asInt`, with the range check of JsonCpp -/
def inInt (n : Int) : Prop := -2 ^ 31 ≤ n ∧ n < 2 ^ 31
instance (n : Int) : Decidable (inInt n) := inferInstanceAs (Decidable (_ ∧ _))

def asInt : Json → Option (BitVec 32)
  | .num n => if inInt n then some (BitVec.ofInt 32 n) else none
  | _ => none

/-- `bind_string`, jsoncpp.hpp:129-135: through `asCString`, so up to the first NUL. -/
def readString : Json → Option (List Byte)
  | .str s => some (s.takeWhile (· ≠ 0#8))
  | _ => none

/-- `bind_buffer`, jsoncpp.hpp:121-127: whether decoding succeeded is not looked at.  Simplification:
undefined behaviour (more than 2^29 characters) is `none` too. -/
def readBuffer (dynamic : Bool) (j : Json) (old : List Byte) : Option (List Byte) :=
  match readString j with
  | none => none
  | some s =>
    match Base64.decode2 dynamic s old with
    | .ok r => some r.2
    | .ub => none

/-- `json_val[name]` on a constant: the member, null if there is none or the value is null, and an
exception from JsonCpp if the value is not an object. -/
def member (j : Json) (name : Name) : Option Json :=
  match j with
  | .null => some .null
  | .obj ms => some (((ms.find? fun m => m.1 = name).map (·.2)).getD .null)
  | _ => none

/-- `get_variant_type_id`, jsoncpp.hpp:173-186 -/
def typeId : Json → Option Int
  | .num n => if inInt n then some n else none
  | .arr [.num n, _] => if inInt n then some n else none
  | _ => none

/-- The loop of `bind_container`, jsoncpp.hpp:111-118 -/
def readAll {α : Type} (f : Json → Option α) : List Json → Option (List α)
  | [] => some []
  | j :: js =>
    match f j with
    | none => none
    | some a => (readAll f js).map (a :: ·)

mutual
/-- `bind_jsoncpp` with a `reader` into a variable that holds `old`; `none` is an exception. -/
def read : (t : Ty) → Json → denote t → Option (denote t)
  | .empty, _, old => some old
  | .uint, j, _ => asUInt j
  | .int, j, _ => asInt j
  | .enum, j, _ => asUInt j
  | .str, j, _ => readString j
  | .buf, j, old => readBuffer true j old
  | .fixed _, j, old => (readBuffer false j (List.ofFn old)).map fun l i => l.getD i 0#8
  | .cont t, j, old =>
    match j with
    | .arr js => (readAll (fun j => read t j (init t)) js).map (old ++ ·)
    | _ => none
  -- 143-171
  | .seq ts, j, old =>
    if ts.count = 0 then some old
    else if ts.count = 1 then readMany ts [j] old
    else match j with
      | .arr js => if js.length = ts.count then readMany ts js old else none
      | _ => none
  | .record ts, j, old => readNamed ts j old
  -- 282-289 and variant.hpp:180-190: nothing happens if the index is unknown
  | .var t ts, j, old =>
    match typeId j with
    | none => none
    | some id =>
      if id = 0 then
        if t.isEmpty then (match j with | .num _ => some (.inl (init t)) | _ => none)
        else (match j with | .arr [_, x] => (read t x (init t)).map .inl | _ => none)
      else if 0 < id ∧ id < ts.length + 1 then (readAlts ts (id.toNat - 1) j).map .inr
      else some old
def readMany : (ts : Tys) → List Json → members ts → Option (members ts)
  | .nil, _, _ => some ()
  | .cons _ t ts, js, old =>
    if t.isEmpty then (readMany ts js old.2).map fun r => (old.1, r)
    else match js with
      | [] => none
      | j :: js =>
        match read t j old.1 with
        | none => none
        | some v => (readMany ts js old.2).map fun r => (v, r)
/-- `bind_named_member`, jsoncpp.hpp:137-141 and 264-276 -/
def readNamed : (ts : Tys) → Json → members ts → Option (members ts)
  | .nil, _, _ => some ()
  | .cons name t ts, j, old =>
    match member j name with
    | none => none
    | some m =>
      match read t m old.1 with
      | none => none
      | some v => (readNamed ts j old.2).map fun r => (v, r)
def readAlts : (ts : Tys) → Nat → Json → Option (alts ts)
  | .nil, _, _ => none
  | .cons _ t _, 0, j =>
    if t.isEmpty then (match j with | .num _ => some (.inl (init t)) | _ => none)
    else (match j with | .arr [_, x] => (read t x (init t)).map .inl | _ => none)
  | .cons _ _ ts, i + 1, j => (readAlts ts i j).map .inr
end

end Nbdl.Bind
