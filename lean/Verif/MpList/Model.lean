import Verif.Common
/-!
# Lists of types and joined texts

Models `/repo/include/mpdef/list.hpp` and `/repo/include/mpdef/string.hpp`.  A C++ object is its type together with what is
stored in it.  `none` stands for a program that does not compile.
-/
namespace Nbdl.MpList

/-- The types, and what the code asks of their objects. -/
structure World where
  /-- types -/
  Ty : Type
  /-- what an object of the type stores -/
  Val : Ty → Type
  /-- `T{}` -/
  init : (t : Ty) → Val t

/-- An object. -/
abbrev Obj (W : World) := (t : W.Ty) × W.Val t

variable {W : World}

/-- `T{}`: a new object of the type -/
def fresh (t : W.Ty) : Obj W := ⟨t, W.init t⟩

/-- `mpdef::make_list`, list.hpp:20-28, and `hana::make<list_tag>`, 63-72: of the arguments only the types are kept. -/
def make (xs : List (Obj W)) : List W.Ty := xs.map Sigma.fst

/-- `hana::unpack`, list.hpp:76-84: what the function is called with. -/
def unpack (l : List W.Ty) : List (Obj W) := l.map fresh

/-- `hana::length`: Hana counts the arguments of `unpack`. -/
def length (l : List W.Ty) : Nat := (unpack l).length

/-- `hana::transform`, list.hpp:88-97: the types that the function would return. -/
def transform (f : Obj W → Obj W) (l : List W.Ty) : List W.Ty := l.map fun t => (f (fresh t)).1

/-- `hana::at`, list.hpp:101-110: `hana::arg<I + 1>` does not compile if there are fewer arguments. -/
def atIdx (l : List W.Ty) (i : Nat) : Option (Obj W) := l[i]?.map fresh

/-- `hana::is_empty`, list.hpp:112-121 -/
def isEmpty (l : List W.Ty) : Bool := l.length == 0

/-- `length - size` of two `std::size_t` -/
def minus (a b : Nat) : Nat := if b ≤ a then a - b else 2 ^ 64 + a - b

/-- `hana::drop_front`, list.hpp:123-140: the types of the elements `offset + i`, for every `i` of the index sequence.  The
sequence ends with the largest index, so it compiles iff the largest one can be looked at.  (Simplification: compilers also
give up on an index sequence of that length.) -/
def dropFront (l : List W.Ty) (n : Nat) : Option (List W.Ty) :=
  if length l < n then
    -- the index sequence is not empty, and its first index is not one of the list
    (atIdx l n).map fun _ => []
  else
    (List.range (minus (length l) n)).mapM fun i => (atIdx l (i + n)).map Sigma.fst

/-- `hana::concat`, list.hpp:144-151 -/
def concat (a b : List W.Ty) : List W.Ty := a ++ b

/-- `operator==` of two lists, list.hpp:32-42: Hana compares the lengths and then the elements in turn with
`hana::equal`. -/
def equal (eq : Obj W → Obj W → Bool) : List W.Ty → List W.Ty → Bool
  | [], [] => true
  | t :: a, u :: b => eq (fresh t) (fresh u) && equal eq a b
  | _, _ => false

/-- `to_tuple`, list.hpp:44-54, used as a function: a tuple of new objects. -/
def toTuple (l : List W.Ty) : List (Obj W) := l.map fresh

/-! ## Texts

The characters of a `hana::string` are part of its type, so nothing is lost in a list. -/

/-- `string_concat`, string.hpp:19-28 -/
def stringConcat (a b : List Char) : List Char := a ++ b

/-- `hana::intersperse` of a list, used in string.hpp:44 -/
def intersperse (d : List Char) : List (List Char) → List (List Char)
  | [] => []
  | [s] => [s]
  | s :: t :: r => s :: d :: intersperse d (t :: r)

/-- `hana::fold_left` without an initial state, used in string.hpp:43: it does not compile for an empty list. -/
def foldLeft : List (List Char) → Option (List Char)
  | [] => none
  | s :: r => some (r.foldl stringConcat s)

/-- What `string_join` gives. -/
inductive Joined where
  | text (s : List Char)
  /-- a function waiting for texts, which joins them with this -/
  | waits (delimiter : List Char)
  deriving DecidableEq, Repr

/-- `string_join(delimiter, strings...)`, string.hpp:32-50: without strings it is the function that waits for them. -/
def stringJoin (d : List Char) (strings : List (List Char)) : Option Joined :=
  match strings with
  | [] => some (.waits d)
  | s :: r => (foldLeft (intersperse d (s :: r))).map .text

end Nbdl.MpList
