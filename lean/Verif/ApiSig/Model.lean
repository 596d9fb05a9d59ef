import Verif.Bind.Props
import Verif.Sha1.Props
/-!
# The signature of an API

Models `/repo/include/nbdl/detail/bind_tag_of.hpp` (25–157) and `/repo/include/nbdl/api_signature.hpp`
(19–47): the tag which a type has as a message, and the SHA-1 digest of the text which the compiler
writes for it.

Simplifications.  Names of classes are texts without `<`, `>` and commas, so class templates are left
out.  How the compiler writes a character in the arguments of a template is a parameter (`chr`).
A type that does not compile is `none`.
-/
namespace Nbdl.ApiSig
open Nbdl.Bind

abbrev Text := List Byte

/-- Fundamental types. -/
inductive Fund where
  | int | uint | bool | char | schar | uchar | short | ushort | long | ulong | llong | ullong | float | double
  deriving DecidableEq, Repr

/-- The name of a fundamental type as the compiler writes it. -/
def Fund.name : Fund → Text
  | .int => ascii "int"
  | .uint => ascii "unsigned int"
  | .bool => ascii "bool"
  | .char => ascii "char"
  | .schar => ascii "signed char"
  | .uchar => ascii "unsigned char"
  | .short => ascii "short"
  | .ushort => ascii "unsigned short"
  | .long => ascii "long"
  | .ulong => ascii "unsigned long"
  | .llong => ascii "long long"
  | .ullong => ascii "unsigned long long"
  | .float => ascii "float"
  | .double => ascii "double"

mutual
/-- The C++ types of messages. -/
inductive CppTy where
  | fund (f : Fund)
  /-- an empty class -/
  | cls (name : Text)
  /-- `hana::type<T>`, with the name of `T` -/
  | type (name : Text)
  /-- a `hana::Constant`, with the text of its value -/
  | const (value : Text)
  /-- `hana::string` -/
  | ctstr (cs : List Byte)
  | enum
  | str
  | buf
  | fixed (n : Nat)
  | cont (t : CppTy)
  /-- a tuple or a pair -/
  | seq (ts : CppTys)
  /-- `hana::map` with strings as keys -/
  | map (ts : CppTys)
  /-- a class declared with `NBDL_ENTITY` -/
  | entity (ts : CppTys)
  | var (t : CppTy) (ts : CppTys)
/-- Members with their names (used in maps and entities) or alternatives. -/
inductive CppTys where
  | nil
  | cons (name : List Byte) (t : CppTy) (ts : CppTys)
end

mutual
/-- The tags, bind_tag_of.hpp:32–61 -/
inductive Tag where
  | fund (f : Fund)
  | cls (name : Text)
  | type (name : Text)
  | const (value : Text)
  | ctstr (cs : List Byte)
  | string
  | buffer
  | dynamicBuffer
  | container (g : Tag)
  | sequence (gs : Tags)
  | map (gs : Tags)
  | variant (gs : Tags)
/-- In a `map` with the keys. -/
inductive Tags where
  | nil
  | cons (name : List Byte) (g : Tag) (gs : Tags)
end

mutual
/-- `bind_tag_of`, bind_tag_of.hpp:65–150.  An enumeration fails the assertion of the general case (68).
An entity is a `BindableSequence` and a `BindableMap` (bind_sequence.hpp:55, bind_map.hpp:29); neither
constraint subsumes the other, so the specialisations 88 and 116 are ambiguous. -/
def tagOf : CppTy → Option Tag
  | .fund f => some (.fund f)
  | .cls n => some (.cls n)
  | .type n => some (.type n)
  | .const v => some (.const v)
  | .ctstr cs => some (.ctstr cs)
  | .enum => none
  | .str => some .string
  | .buf => some .dynamicBuffer
  | .fixed _ => some .buffer
  | .cont t => (tagOf t).map .container
  | .seq ts => (tagsOf false ts).map .sequence
  | .map ts => (tagsOf true ts).map .map
  | .entity _ => none
  | .var t ts =>
    match tagOf t, tagsOf false ts with
    | some g, some gs => some (.variant (.cons [] g gs))
    | _, _ => none
/-- The tags of members, with the keys of a map. -/
def tagsOf (named : Bool) : CppTys → Option Tags
  | .nil => some .nil
  | .cons n t ts =>
    match tagOf t, tagsOf named ts with
    | some g, some gs => some (.cons (if named then n else []) g gs)
    | _, _ => none
end

mutual
/-- A type as the compiler writes it: a name, or a name with arguments. -/
inductive Tree where
  | name (n : Text)
  | app (n : Text) (as : Trees)
inductive Trees where
  | nil
  | cons (a : Tree) (as : Trees)
end

def lt : Byte := 60#8
def gt : Byte := 62#8
def comma : Byte := 44#8
def blank : Byte := 32#8

mutual
/-- `T<A, B>` -/
def Tree.text : Tree → Text
  | .name n => n
  | .app n as => n ++ lt :: (as.text ++ [gt])
def Trees.text : Trees → Text
  | .nil => []
  | .cons a as => a.text ++ as.more
/-- The arguments after the first. -/
def Trees.more : Trees → Text
  | .nil => []
  | .cons a as => comma :: blank :: (a.text ++ as.more)
end

/-- The namespace of the tags, bind_tag_of.hpp:25–32 -/
def tagNs : Text := ascii "nbdl::_b::tag::"

/-- The characters of a `ct_string` as arguments. -/
def chars (chr : Byte → Text) : List Byte → Trees
  | [] => .nil
  | c :: cs => .cons (.name (chr c)) (chars chr cs)

mutual
/-- A tag as the type that it is, bind_tag_of.hpp:32–61 -/
def Tag.tree (chr : Byte → Text) : Tag → Tree
  | .fund f => .name f.name
  | .cls n => .name n
  | .type n => .app (tagNs ++ ascii "type") (.cons (.name n) .nil)
  | .const v => .app (tagNs ++ ascii "constant") (.cons (.name v) .nil)
  | .ctstr cs => .app (tagNs ++ ascii "ct_string") (chars chr cs)
  | .string => .name (tagNs ++ ascii "string")
  | .buffer => .name (tagNs ++ ascii "buffer")
  | .dynamicBuffer => .name (tagNs ++ ascii "dynamic_buffer")
  | .container g => .app (tagNs ++ ascii "container") (.cons (g.tree chr) .nil)
  | .sequence gs => .app (tagNs ++ ascii "sequence") (gs.trees chr)
  | .map gs => .app (tagNs ++ ascii "map") (gs.nodes chr)
  | .variant gs => .app (tagNs ++ ascii "variant") (gs.trees chr)
def Tags.trees (chr : Byte → Text) : Tags → Trees
  | .nil => .nil
  | .cons _ g gs => .cons (g.tree chr) (gs.trees chr)
/-- The nodes of a map, bind_tag_of.hpp:106–119 -/
def Tags.nodes (chr : Byte → Text) : Tags → Trees
  | .nil => .nil
  | .cons n g gs =>
    .cons (.app (tagNs ++ ascii "map_node")
      (.cons (.app (tagNs ++ ascii "ct_string") (chars chr n)) (.cons (g.tree chr) .nil))) (gs.nodes chr)
end

/-- `__PRETTY_FUNCTION__` of `api_signature_helper`, api_signature.hpp:21–25, as clang writes it. -/
def prettyFunction (chr : Byte → Text) (format g : Tag) : Text :=
  ascii "const char *nbdl::detail::api_signature_helper(T...) [T = <" ++
    ((format.tree chr).text ++ comma :: blank :: ((g.tree chr).text ++ ascii ">]"))

/-- `api_signature<T>(format_name)`, api_signature.hpp:28–46: the text is hashed in one piece.  The
format is given by its name, a `hana::string`. -/
def signature (chr : Byte → Text) (format : List Byte) (t : CppTy) : Option (List Byte) :=
  (tagOf t).map fun g =>
    Sha1.finish (Sha1.update Sha1.init (prettyFunction chr (.ctstr format) g))

mutual
/-- How the binder for JSON sees the type (`Bind.Ty`); of the fundamental types it can read only `int`
and `unsigned`. -/
def bindOf : CppTy → Option Ty
  | .fund .int => some .int
  | .fund .uint => some .uint
  | .fund _ => none
  | .cls _ => some .empty
  | .type _ => some .empty
  | .const _ => some .empty
  | .ctstr _ => some .empty
  | .enum => some .enum
  | .str => some .str
  | .buf => some .buf
  | .fixed n => some (.fixed n)
  | .cont t => (bindOf t).map .cont
  | .seq .nil => some .empty
  | .seq (.cons n t ts) => (bindAll false (.cons n t ts)).map .seq
  | .map ts => (bindAll true ts).map .record
  | .entity ts => (bindAll true ts).map .record
  | .var t ts =>
    match bindOf t, bindAll false ts with
    | some b, some bs => some (.var b bs)
    | _, _ => none
def bindAll (named : Bool) : CppTys → Option Tys
  | .nil => some .nil
  | .cons n t ts =>
    match bindOf t, bindAll named ts with
    | some b, some bs => some (.cons (if named then n else []) b bs)
    | _, _ => none
end

end Nbdl.ApiSig
