import Verif.JsBind.Model
/-!
Text in UTF-8 and UTF-16, what an engine must do, and which values keep their meaning on which way.
-/
namespace Nbdl.JsBind.Spec
open Nbdl.Bind (Ty Tys denote members alts init Name)

/-- A character in UTF-8 (RFC 3629). -/
def utf8Char (c : Char) : List Byte :=
  let n := c.toNat
  let b (k : Nat) : Byte := BitVec.ofNat 8 k
  if n < 0x80 then [b n]
  else if n < 0x800 then [b (0xC0 + n / 0x40), b (0x80 + n % 0x40)]
  else if n < 0x10000 then [b (0xE0 + n / 0x1000), b (0x80 + n / 0x40 % 0x40), b (0x80 + n % 0x40)]
  else [b (0xF0 + n / 0x40000), b (0x80 + n / 0x1000 % 0x40), b (0x80 + n / 0x40 % 0x40), b (0x80 + n % 0x40)]

/-- A character in UTF-16 (RFC 2781). -/
def utf16Char (c : Char) : List Unit16 :=
  let n := c.toNat
  if n < 0x10000 then [BitVec.ofNat 16 n]
  else [BitVec.ofNat 16 (0xD800 + (n - 0x10000) / 0x400), BitVec.ofNat 16 (0xDC00 + (n - 0x10000) % 0x400)]

/-- A text in UTF-8. -/
def utf8 (cs : List Char) : List Byte := cs.flatMap utf8Char
/-- A text in UTF-16. -/
def utf16 (cs : List Char) : List Unit16 := cs.flatMap utf16Char

/-- The engine converts text as it should; it may do what it likes with bytes that are no text. -/
structure Sane (e : Engine) : Prop where
  decode : ∀ cs, e.decode (utf8 cs) = utf16 cs
  encode : ∀ cs, e.encode (utf16 cs) = utf8 cs

/-- The bytes are a text. -/
def IsText (s : List Byte) : Prop := ∃ cs, s = utf8 cs

/-- Every byte is an ASCII character. -/
def Ascii (s : List Byte) : Prop := ∀ b ∈ s, b.toNat < 0x80

/-- Names of members are different and, like identifiers, ASCII without NUL. -/
def NamesOk (ns : List Name) : Prop := ns.Nodup ∧ ∀ n ∈ ns, Ascii n ∧ 0#8 ∉ n

mutual
/-- The members of a record have different names, no array has 2^29 bytes or more, and no variant 2^31 alternatives. -/
def Wf : Ty → Prop
  | .fixed n => 4 * n < 2 ^ 31
  | .cont t => Wf t
  | .seq ts => WfAll ts
  | .record ts => NamesOk (Bind.Spec.names ts) ∧ WfAll ts
  | .var t ts => (Bind.Spec.names ts).length + 1 < 2 ^ 31 ∧ Wf t ∧ WfAll ts
  | _ => True
def WfAll : Tys → Prop
  | .nil => True
  | .cons _ t ts => Wf t ∧ WfAll ts
end

/-- What is asked of the parts of a value, kind by kind. -/
structure Demands where
  uint : BitVec 32 → Prop
  enum : BitVec 32 → Prop
  str : List Byte → Prop
  /-- the number of elements of a container -/
  cont : Nat → Prop

mutual
/-- The demands hold for all parts of the value, and buffers are small enough to encode. -/
def Holds (d : Demands) : (t : Ty) → denote t → Prop
  | .empty, _ => True
  | .uint, n => d.uint n
  | .int, _ => True
  | .enum, n => d.enum n
  | .str, s => d.str s
  | .buf, b => 4 * b.length < 2 ^ 31
  | .fixed _, _ => True
  | .cont t, vs => d.cont vs.length ∧ ∀ v ∈ vs, Holds d t v
  | .seq ts, v => HoldsAll d ts v
  | .record ts, v => HoldsAll d ts v
  | .var t _, .inl v => Holds d t v
  | .var _ ts, .inr v => HoldsAlt d ts v
def HoldsAll (d : Demands) : (ts : Tys) → members ts → Prop
  | .nil, _ => True
  | .cons _ t ts, v => Holds d t v.1 ∧ HoldsAll d ts v.2
def HoldsAlt (d : Demands) : (ts : Tys) → alts ts → Prop
  | .cons _ t _, .inl v => Holds d t v
  | .cons _ _ ts, .inr v => HoldsAlt d ts v
end

/-- All strings are text. -/
def texts : Demands := ⟨fun _ => True, fun _ => True, IsText, fun _ => True⟩

/-- Kept from client to client: strings are ASCII without NUL. -/
def atHome : Demands := ⟨fun _ => True, fun _ => True, fun s => Ascii s ∧ 0#8 ∉ s, fun _ => True⟩

/-- Kept from client to server: numbers without sign are small, enumerators not negative, strings without NUL. -/
def up : Demands := ⟨fun n => n.toNat < 2 ^ 31, fun n => 0 ≤ n.toInt, fun s => 0#8 ∉ s, fun _ => True⟩

/-- Kept from server to client: strings are ASCII, containers not empty. -/
def down : Demands := ⟨fun _ => True, fun _ => True, Ascii, fun n => n ≠ 0⟩

end Nbdl.JsBind.Spec
