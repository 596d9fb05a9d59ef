import Verif.Common
/-!
# String concatenation

Models `/repo/include/nbdl/detail/string_concat.hpp` and
`/repo/include/nbdl/detail/string_concat_view.hpp`.  Lifetimes are not modelled: a view is assumed to be used
while the strings it refers to exist.  Lengths are unbounded (`std::size_t` does not wrap).
-/
namespace Nbdl.Concat

/-- The strings that can be concatenated, string_concat.hpp:30-48 and string_concat_view.hpp:184-210. -/
inductive Str where
  /-- a `std::string`, or another `String` with `data` and `size` -/
  | string (s : List Byte)
  /-- a `hana::string` -/
  | literal (s : List Byte)
  /-- anything that converts to a `char const*`: the characters before the NUL -/
  | cstr (s : List Byte)

/-- `to_string_view`, string_concat.hpp:30-48, and `string_view(…)` of string_concat_view.hpp:184-210: a
`char const*` ends at its first NUL. -/
def Str.view : Str → List Byte
  | .string s => s
  | .literal s => s
  | .cstr s => s.takeWhile (· ≠ 0#8)

/-- `std::copy` of `s` to position `pos` of `buf`: undefined if it does not fit. -/
def copyTo (s : List Byte) (buf : List Byte) (pos : Nat) : Cpp (List Byte) :=
  if pos + s.length ≤ buf.length then .ok (buf.take pos ++ s ++ buf.drop (pos + s.length)) else .ub

/-- The loop over the views, string_concat.hpp:65-69 -/
def copyAll : List (List Byte) → List Byte → Nat → Cpp (List Byte)
  | [], buf, _ => .ok buf
  | s :: ss, buf, pos => (copyTo s buf pos).bind fun buf => copyAll ss buf (pos + s.length)

/-- `string_concat`, string_concat.hpp:52-82 -/
def stringConcat (strs : List Str) : Cpp (List Byte) :=
  copyAll (strs.map Str.view) (List.replicate ((strs.map fun s => s.view.length).foldr (· + ·) 0) 0#8) 0

/-- `string_concat_view`, string_concat_view.hpp:60-173: a string, or an array of views. -/
inductive View where
  | leaf (s : List Byte)
  | node (vs : List View)

mutual
/-- `length`, string_concat_view.hpp:80-83 and 163-169 -/
def View.length : View → Nat
  | .leaf s => s.length
  | .node vs => lengths vs
def lengths : List View → Nat
  | [] => 0
  | v :: vs => v.length + lengths vs
end

mutual
/-- `copy`, string_concat_view.hpp:70-73 and 137-145 -/
def View.copy : View → List Byte → Nat → Cpp (List Byte)
  | .leaf s, buf, pos => copyTo s buf pos
  | .node vs, buf, pos => copies vs buf pos
def copies : List View → List Byte → Nat → Cpp (List Byte)
  | [], buf, _ => .ok buf
  | v :: vs, buf, pos => (v.copy buf pos).bind fun buf => copies vs buf (pos + v.length)
end

/-- `std::equal` of `s` with the characters from the iterator on, up to the first difference: undefined if
the text ends before. -/
def equalFrom : List Byte → List Byte → Cpp Bool
  | [], _ => .ok true
  | _ :: _, [] => .ub
  | a :: s, b :: t => if a = b then equalFrom s t else .ok false

mutual
/-- `equal`, string_concat_view.hpp:75-78 and 147-161.  An iterator may not be moved past the end. -/
def View.equal : View → List Byte → Nat → Cpp Bool
  | .leaf s, t, pos => equalFrom s (t.drop pos)
  | .node vs, t, pos => equals vs t pos true
def equals : List View → List Byte → Nat → Bool → Cpp Bool
  | [], _, _, r => .ok r
  | v :: vs, t, pos, r =>
    if r then
      (v.equal t pos).bind fun r =>
        if pos + v.length ≤ t.length then equals vs t (pos + v.length) r else .ub
    else equals vs t pos r
end

/-- `to_string`, string_concat_view.hpp:102-107 -/
def View.toString (v : View) : Cpp (List Byte) := v.copy (List.replicate v.length 0#8) 0

/-- `string_concat_view()`, string_concat_view.hpp:93-95 -/
def View.empty : View := .leaf []

/-- What `make_string_concat_view` takes. -/
inductive Arg where
  | str (s : Str)
  | view (v : View)

/-- `to_string_concat_view`, string_concat_view.hpp:177-211 -/
def Arg.toView : Arg → View
  | .str s => .leaf s.view
  | .view v => v

/-- `make_string_concat_view`, string_concat_view.hpp:215-228 -/
def makeView : List Arg → View
  | [a] => a.toView
  | as => .node (as.map Arg.toView)

end Nbdl.Concat
