import Verif.Common
/-!
# Route maps

Models `/repo/include/nbdl/webui/route_map.hpp` and `/repo/include/nbdl/fwd/webui/route_map.hpp`.

A route map is a list of route names with the types of the members of the route's struct, in order
(`bind_sequence` leaves out members of empty types; a route without a struct has no members).  A route value
is the index of its type in the variant with the member values.  `W` is the number of bits of `std::size_t`.
Simplification: integral members are of an ordinary signed or unsigned type, not `bool`.
-/
namespace Nbdl.Route

/-- The type of a member. -/
inductive PTy where
  /-- `nbdl::string` -/
  | str
  /-- an integral type -/
  | int (bits : Nat) (signed : Bool)
  deriving DecidableEq, Repr

/-- A member. -/
inductive PVal where
  | str (s : List Byte)
  | int (i : Int)
  deriving DecidableEq, Repr

/-- A `route_pair`, fwd/webui/route_map.hpp:18-36. -/
structure Pair where
  name : List Byte
  members : List PTy
  deriving DecidableEq, Repr

/-- A route value that is not `route_not_found`. -/
structure Value where
  idx : Nat
  members : List PVal
  deriving DecidableEq, Repr

def slash : Byte := 0x2f#8

/-- The decimal digits of a number; `fuel` exceeds the number of digits. -/
def digitsAux : Nat → Nat → List Byte
  | 0, _ => []
  | fuel + 1, n =>
    if n < 10 then [BitVec.ofNat 8 (48 + n)] else digitsAux fuel (n / 10) ++ [BitVec.ofNat 8 (48 + n % 10)]

/-- `std::to_string` of a natural number -/
def digits (n : Nat) : List Byte := digitsAux (n + 1) n

/-- `std::to_string` -/
def toStringInt (i : Int) : List Byte := if i < 0 then 0x2d#8 :: digits i.natAbs else digits i.natAbs

/-- `append_route_param`, route_map.hpp:37-49: what is appended. -/
def appendParam : PVal → List Byte
  | .str s => slash :: s
  | .int i => slash :: toStringInt i

/-- `to_string`, route_map.hpp:210-228; `mp_map_find` by the type is the index here. -/
def toString (rm : List Pair) (v : Value) : List Byte :=
  match rm[v.idx]? with
  | none => []
  | some p => slash :: p.name ++ v.members.flatMap appendParam

/-- The loop of `to_integral_param`, route_map.hpp:54-66 -/
def integralLoop (W : Nat) : Nat → List Byte → Nat
  | result, [] => result
  | result, c :: cs =>
    -- the difference of a smaller or negative character wraps around
    if c.toNat < 48 ∨ c.toNat - 48 > 9 then 0
    else integralLoop W ((result * 10 % 2 ^ W + (c.toNat - 48)) % 2 ^ W) cs

/-- `to_integral_param`, route_map.hpp:52-69 -/
def toIntegral (W : Nat) (param : List Byte) : Nat := integralLoop W 0 param

/-- Conversion of a `std::size_t` to an integral type. -/
def wrap (bits : Nat) (signed : Bool) (n : Nat) : Int :=
  if signed then Int.bmod n (2 ^ bits) else (n % 2 ^ bits : Nat)

/-- `bind_route_param`, route_map.hpp:71-95: the member and whether it is valid. -/
def bindParam (W : Nat) (t : PTy) (param : List Byte) : PVal × Bool :=
  match t with
  | .str => (.str param, param.length > 0)
  | .int bits signed =>
    let m := wrap bits signed (toIntegral W param)
    (.int m, m ≠ 0)

/-- `parse_route_param`, route_map.hpp:97-111: the parameter and the rest of the text. -/
def parseParam : List Byte → List Byte × List Byte
  | [] => ([], [])
  | c :: s => if c ≠ slash then ([], c :: s) else (s.takeWhile (· ≠ slash), s.dropWhile (· ≠ slash))

/-- The loop of `from_string`, route_map.hpp:249-257: the parameters before the first empty one and the rest
of the text. -/
def parseLoop : Nat → List Byte → List (List Byte) × List Byte
  | 0, view => ([], view)
  | n + 1, view =>
    let r := parseParam view
    if r.1.length = 0 then ([], r.2)
    else
      let rest := parseLoop n r.2
      (r.1 :: rest.1, rest.2)

/-- The number of elements of `Params`, route_map.hpp:132 -/
def maxParams : Nat := 10

/-- Binding all members, route_map.hpp:176: `&&` stops at the first invalid one. -/
def bindAll (W : Nat) : List PTy → List (List Byte) → Option (List PVal)
  | [], _ => some []
  | t :: ts, ps =>
    match bindParam W t (ps.headD []) with
    | (v, true) => (bindAll W ts ps.tail).map (v :: ·)
    | (_, false) => none

/-- `make_from_params`, route_map.hpp:136-192.  `params` are the first elements of the array, the others are
empty.  Copying into `sub_params` (165-167) reads `params[i]` for every `i` up to the number of members. -/
def makeFromParams (W : Nat) (rm : List Pair) (params : List (List Byte)) (count : Nat) :
    Cpp (Option Value) :=
  match rm.findIdx? (·.name = params.getD 0 []) with
  | none => .ok none
  | some i =>
    match rm[i]? with
    | none => .ok none
    | some p =>
      if p.members.length + 1 > maxParams then .ub
      else if p.members.length + 1 ≠ count then .ok none
      else .ok ((bindAll W p.members params.tail).map (⟨i, ·⟩))

/-- `from_string`, route_map.hpp:230-267; `none` is `route_not_found`. -/
def fromString (W : Nat) (rm : List Pair) (s : List Byte) : Cpp (Option Value) :=
  match s with
  | [] => .ok none
  | c :: s' =>
    if c ≠ slash then .ok none
    else if s'.length = 0 then makeFromParams W rm [] 1
    else
      let r := parseLoop maxParams s
      if r.2.length ≠ 0 then .ok none
      else makeFromParams W rm r.1 r.1.length

end Nbdl.Route
