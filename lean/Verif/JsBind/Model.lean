import Verif.Bind.Props
/-!
# The JavaScript binder

Models `/repo/include/nbdl/binder/js.hpp`: values of the types of `Verif/Bind/Model.lean` are turned into JavaScript
values and back, for the client that runs in a browser.  Entries of the registry of `js_val` (detail/js_val.hpp) are
values here: every array and object is made by a literal (`[]`, `{}`) in the call that fills it, so none is shared.

What belongs to the browser and to Emscripten is in `Engine`.

Simplifications.
* A number is an integer or, if it has a fraction or is too large, `real`.
* Properties that values inherit from their prototypes, or that arrays and strings have besides their elements and
  `length`, are not there; no member is called `__proto__`.
* Emscripten passes `int`, `unsigned` and enumerations as signed 32 bit integers.
-/
namespace Nbdl.JsBind
open Nbdl.Bind (Ty Tys denote members alts init initAll Json Name encodeText)

/-- A UTF-16 code unit. -/
abbrev Unit16 := BitVec 16

/-- A JavaScript value. -/
inductive Js where
  | undefined
  | null
  | bool (b : Bool)
  | num (n : Int)
  | real
  | str (s : List Unit16)
  | arr (js : List Js)
  | obj (ms : List (List Unit16 × Js))

/-- What is left to the engine: decoding and encoding of UTF-8, and what strings, objects and numbers with a fraction
are as integers and bytes. -/
structure Engine where
  /-- the text of UTF-8 bytes -/
  decode : List Byte → List Unit16
  /-- the UTF-8 bytes of a text -/
  encode : List Unit16 → List Byte
  /-- `ToInt32` of a value that is neither an integer nor a boolean nor nothing -/
  odd : Js → BitVec 32

variable (e : Engine)

/-- `UTF8ToString(p, n)`: up to the first NUL. -/
def utf8ToString (s : List Byte) : List Unit16 := e.decode (s.takeWhile (· ≠ 0#8))

/-- `ToInt32`: the value of `EM_ASM_INT`. -/
def toInt32 : Js → BitVec 32
  | .undefined => 0#32
  | .null => 0#32
  | .bool b => if b then 1#32 else 0#32
  | .num n => BitVec.ofInt 32 n
  | j => e.odd j

/-! ## Writing, js.hpp:121-276 -/

/-- `bind_to` of a `String`, js.hpp:121-134, and of bytes as base64, 227-235 -/
def writeText (s : List Byte) : Js := .str (utf8ToString e s)

/-- A sequence without members, with one and with more, js.hpp:166-202 -/
def pack : List Js → Js
  | [] => .arr []
  | [j] => j
  | js => .arr js

/-- A variant, js.hpp:265-276 and variant.hpp:192-199: a tuple of its index and, unless it is empty, the value. -/
def altJs (t : Ty) (i : Nat) (j : Js) : Js := if t.isEmpty then .num i else .arr [.num i, j]

mutual
/-- `bind_to`, js.hpp:67-80 and 121-276 -/
def write : (t : Ty) → denote t → Js
  | .empty, _ => .arr []
  -- 136-149: as a signed integer
  | .uint, n => .num n.toInt
  | .int, n => .num n.toInt
  -- 151-164
  | .enum, n => .num n.toInt
  | .str, s => writeText e s
  | .buf, b => writeText e (encodeText b)
  | .fixed _, b => writeText e (encodeText (List.ofFn b))
  -- 204-225
  | .cont t, vs => .arr (vs.map (write t))
  | .seq ts, v => pack (writeMany ts v)
  -- 237-263
  | .record ts, v => .obj (writeNamed ts v)
  | .var t _, .inl v => altJs t 0 (write t v)
  | .var _ ts, .inr v => writeAlts ts 1 v
/-- The members that are not empty (detail/filter_empties.hpp). -/
def writeMany : (ts : Tys) → members ts → List Js
  | .nil, _ => []
  | .cons _ t ts, v => if t.isEmpty then writeMany ts v.2 else write t v.1 :: writeMany ts v.2
/-- The members under their names, js.hpp:245-260 -/
def writeNamed : (ts : Tys) → members ts → List (List Unit16 × Js)
  | .nil, _ => []
  | .cons n t ts, v => (utf8ToString e n, write t v.1) :: writeNamed ts v.2
/-- The alternatives from the `i`-th on. -/
def writeAlts : (ts : Tys) → Nat → alts ts → Js
  | .cons _ t _, i, .inl v => altJs t i (write t v)
  | .cons _ _ ts, i, .inr v => writeAlts ts (i + 1) v
end

/-! ## Reading, js.hpp:99-115 and 282-486 -/

/-- The property of an object. -/
def lookup (ms : List (List Unit16 × Js)) (key : List Unit16) : Js :=
  ((ms.find? fun m => m.1 = key).map (·.2)).getD .undefined

/-- The text of a number or of an identifier as code units. -/
def units (s : String) : List Unit16 := s.toList.map fun c => BitVec.ofNat 16 c.toNat

/-- `v.length` as an `int`; `none` is an exception (there is no property of `undefined` and `null`). -/
def lengthOf : Js → Option Int
  | .undefined => none
  | .null => none
  | .str s => some s.length
  | .arr js => some js.length
  | .obj ms => some (toInt32 e (lookup ms (units "length"))).toInt
  | _ => some 0

/-- `v[i]` for an index -/
def item (j : Js) (i : Nat) : Option Js :=
  match j with
  | .undefined => none
  | .null => none
  | .str s => some ((s[i]?.map fun u => .str [u]).getD .undefined)
  | .arr js => some (js[i]?.getD .undefined)
  | .obj ms => some (lookup ms (units (toString i)))
  | _ => some .undefined

/-- `v[name]` for a name -/
def prop (j : Js) (name : Name) : Option Js :=
  match j with
  | .undefined => none
  | .null => none
  | .obj ms => some (lookup ms (utf8ToString e name))
  | _ => some .undefined

/-- The low byte of a code unit (`stringToAscii`). -/
def low (u : Unit16) : Byte := u.setWidth 8

/-- `bind_from` of a `String`, js.hpp:282-317: as many bytes as the value has `length`; of a text the low bytes of its
code units, of anything else what its elements are as bytes.  Simplification: an object whose `length` is not an
integer of 32 bits is read as if it were that integer. -/
def readText (j : Js) : Option (List Byte) :=
  match j with
  | .str s => some (s.map low)
  | j =>
    match lengthOf e j with
    | none => none
    | some n =>
      if n < 0 then none
      else some ((List.range n.toNat).map fun i => ((item j i).map fun x => (toInt32 e x).setWidth 8).getD 0#8)

/-- `bind_from` of bytes, js.hpp:432-441: whether decoding succeeded is not looked at.  Simplification: undefined
behaviour (more than 2^29 characters) is `none` too. -/
def readBuffer (dynamic : Bool) (j : Js) (old : List Byte) : Option (List Byte) :=
  match readText e j with
  | none => none
  | some s =>
    match Base64.decode2 dynamic s old with
    | .ok r => some r.2
    | .ub => none

/-- `get_variant_type_id`, js.hpp:99-115 -/
def typeId : Js → Int
  | .arr js => (toInt32 e (js[0]?.getD .undefined)).toInt
  | j => (toInt32 e j).toInt

/-- The loop of a container, js.hpp:410-426: the elements from the `i`-th on -/
def readAll {α : Type} (f : Js → Option α) (j : Js) : Nat → Nat → Option (List α)
  | _, 0 => some []
  | i, n + 1 =>
    match item j i with
    | none => none
    | some x =>
      match f x with
      | none => none
      | some a => (readAll f j (i + 1) n).map (a :: ·)

mutual
/-- `bind_from`, js.hpp:82-95 and 282-486, into a variable that holds `old`; `none` is an exception. -/
def read : (t : Ty) → Js → denote t → Option (denote t)
  | .empty, _, old => some old
  -- 319-332 and 334-347
  | .uint, j, _ => some (toInt32 e j)
  | .int, j, _ => some (toInt32 e j)
  | .enum, j, _ => some (toInt32 e j)
  | .str, j, _ => readText e j
  | .buf, j, old => readBuffer e true j old
  | .fixed _, j, old => (readBuffer e false j (List.ofFn old)).map fun l i => l.getD i 0#8
  -- 392-430; a negative length is refused by the constructor of the container
  | .cont t, j, _ =>
    match lengthOf e j with
    | none => none
    | some n => if n < 0 then none else readAll (fun j => read t j (init t)) j 0 n.toNat
  -- 349-390
  | .seq ts, j, old =>
    if ts.count = 0 then some old
    else if ts.count = 1 then readOne ts j old
    else readMany ts j 0 old
  -- 443-469
  | .record ts, j, old => readNamed ts j old
  -- 471-486 and variant.hpp:180-190: nothing happens if the index is unknown
  | .var t ts, j, old =>
    if typeId e j = 0 then
      if t.isEmpty then some (.inl (init t))
      else match item j 0, item j 1 with
        | some _, some x => (read t x (init t)).map .inl
        | _, _ => none
    else if 0 < typeId e j ∧ typeId e j < ts.length + 1 then (readAlts ts ((typeId e j).toNat - 1) j).map .inr
    else some old
/-- The one member that is not empty. -/
def readOne : (ts : Tys) → Js → members ts → Option (members ts)
  | .nil, _, _ => some ()
  | .cons _ t ts, j, old =>
    if t.isEmpty then (readOne ts j old.2).map fun r => (old.1, r)
    else (read t j old.1).map fun v => (v, old.2)
/-- The members that are not empty, from the `i`-th element on. -/
def readMany : (ts : Tys) → Js → Nat → members ts → Option (members ts)
  | .nil, _, _, _ => some ()
  | .cons _ t ts, j, i, old =>
    if t.isEmpty then (readMany ts j i old.2).map fun r => (old.1, r)
    else
      match item j i with
      | none => none
      | some x =>
        match read t x old.1 with
        | none => none
        | some v => (readMany ts j (i + 1) old.2).map fun r => (v, r)
/-- The members under their names. -/
def readNamed : (ts : Tys) → Js → members ts → Option (members ts)
  | .nil, _, _ => some ()
  | .cons name t ts, j, old =>
    match prop e j name with
    | none => none
    | some x =>
      match read t x old.1 with
      | none => none
      | some v => (readNamed ts j old.2).map fun r => (v, r)
/-- The alternatives from the first of `ts` on. -/
def readAlts : (ts : Tys) → Nat → Js → Option (alts ts)
  | .nil, _, _ => none
  | .cons _ t _, 0, j =>
    if t.isEmpty then some (.inl (init t))
    else match item j 0, item j 1 with
      | some _, some x => (read t x (init t)).map .inl
      | _, _ => none
  | .cons _ _ ts, i + 1, j => (readAlts ts i j).map .inr
end

/-! ## The text between client and server -/

mutual
/-- `JSON.stringify` and `ws.send` in the browser (app/client_connection_js.hpp:147-157), and the parser of JsonCpp
on the other side (binder/jsoncpp.hpp: `from_string`).  Simplification: a member that is `undefined` is sent as
null; none is written. -/
def toServer : Js → Json
  | .undefined => .null
  | .null => .null
  | .bool b => .bool b
  | .num n => .num n
  | .real => .real
  | .str s => .str (e.encode s)
  | .arr js => .arr (toServerAll js)
  | .obj ms => .obj (toServerMembers ms)
def toServerAll : List Js → List Json
  | [] => []
  | j :: js => toServer j :: toServerAll js
def toServerMembers : List (List Unit16 × Js) → List (Name × Json)
  | [] => []
  | (n, j) :: ms => (e.encode n, toServer j) :: toServerMembers ms
end

mutual
/-- The writer of JsonCpp (binder/jsoncpp.hpp: `to_string`), and `JSON.parse(event.data)` in the browser
(app/client_connection_js.hpp:121-124). -/
def toClient : Json → Js
  | .null => .null
  | .bool b => .bool b
  | .num n => .num n
  | .real => .real
  | .str s => .str (e.decode s)
  | .arr js => .arr (toClientAll js)
  | .obj ms => .obj (toClientMembers ms)
def toClientAll : List Json → List Js
  | [] => []
  | j :: js => toClient j :: toClientAll js
def toClientMembers : List (Name × Json) → List (List Unit16 × Js)
  | [] => []
  | (n, j) :: ms => (e.decode n, toClient j) :: toClientMembers ms
end

end Nbdl.JsBind
