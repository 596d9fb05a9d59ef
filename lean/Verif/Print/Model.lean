import Verif.Common
/-!
# Printing of values

Models `/repo/example/pipes/hana_printable.hpp`, lines 53–245 (`print`), which the example program uses for the
messages it receives (`/repo/example/pipes/main.cpp`, 84-88).

Simplifications.
* Texts are lists of characters.
* What `operator<<` writes for a value is given (`leaf`): the value itself is not modelled, only its text.
* Which specialization of `print_impl` is chosen depends on the type alone; a type that none of them fits does not
  compile and has no value here.
-/
namespace Nbdl.Print

abbrev Text := List Char

mutual
/-- A value that can be printed. -/
inductive Val where
  /-- a value with an `operator<<` (hana_printable.hpp:128-141): the text it writes -/
  | leaf (t : Text)
  /-- an `integral_constant` or the like (196-207): the text of its value, which is part of its type -/
  | const (t : Text)
  /-- a `hana::string` (220-227): its characters are part of its type -/
  | str (t : Text)
  /-- a `hana::optional` (143-153); whether it has a value is part of its type -/
  | nothing
  | just (v : Val)
  /-- a `hana::pair` (209-218) -/
  | pair (a b : Val)
  /-- a `hana::tuple` (113-126) -/
  | seq (xs : Vals)
  /-- a `hana::set` (229-244) -/
  | set (xs : Vals)
  /-- a `hana::map` (155-174) -/
  | map (es : Entries)
/-- The elements of a sequence or set. -/
inductive Vals where
  | nil
  | cons (v : Val) (vs : Vals)
/-- The pairs of a map. -/
inductive Entries where
  | nil
  | cons (k v : Val) (es : Entries)
end

/-- The characters of a `hana::string` as a `std::string` made of a `char const*` has them
(hana_printable.hpp:225): up to the first NUL. -/
def cString : Text → Text
  | [] => []
  | c :: cs => if c = '\x00' then [] else c :: cString cs

mutual
/-- `print`, hana_printable.hpp:80-95 and 113-244. -/
def print : Val → Text
  | .leaf t => t
  | .const t => t
  | .str t => ['"'] ++ cString t ++ ['"']
  | .nothing => "nothing".toList
  | .just v => "just(".toList ++ print v ++ [')']
  | .pair a b => ['('] ++ print a ++ ", ".toList ++ print b ++ [')']
  | .seq xs => ['('] ++ printAll xs ++ [')']
  | .set xs => ['{'] ++ printAll xs ++ ['}']
  | .map es => ['{'] ++ printEntries es ++ ['}']
/-- The loops over `intersperse(xs, ", ")`, hana_printable.hpp:118-122 and 234-240: the separator goes between two
elements. -/
def printAll : Vals → Text
  | .nil => []
  | .cons v vs => print v ++ printRest vs
/-- The elements after the first one. -/
def printRest : Vals → Text
  | .nil => []
  | .cons v vs => ", ".toList ++ (print v ++ printRest vs)
/-- The loop over the pairs of a map, hana_printable.hpp:160-170. -/
def printEntries : Entries → Text
  | .nil => []
  | .cons k v es => print k ++ (" => ".toList ++ (print v ++ printEntriesRest es))
/-- The pairs after the first one. -/
def printEntriesRest : Entries → Text
  | .nil => []
  | .cons k v es => ", ".toList ++ (print k ++ (" => ".toList ++ (print v ++ printEntriesRest es)))
end

end Nbdl.Print
