import Verif.Hash.Model
/-!
The leaf values of a bound value, from left to right.
-/
namespace Nbdl.Hash.Spec
open Nbdl.Bind

mutual
def leaves : (t : Ty) → denote t → List Leaf
  | .empty, _ => []
  | .uint, n => [.uint n]
  | .int, n => [.int n]
  | .enum, n => [.enum n]
  | .str, s => s.map .byte
  | .buf, b => b.map .byte
  | .fixed _, b => (List.ofFn b).map .byte
  | .cont t, vs => vs.map (elem t)
  | .seq ts, v => leavesMany ts v
  | .record ts, v => leavesMany ts v
  | .var t _, .inl v => .int 0#32 :: leaves t v
  | .var _ ts, .inr v => leavesAlts ts 1 v
def leavesMany : (ts : Tys) → members ts → List Leaf
  | .nil, _ => []
  | .cons _ t ts, v => leaves t v.1 ++ leavesMany ts v.2
def leavesAlts : (ts : Tys) → Nat → alts ts → List Leaf
  | .cons _ t _, i, .inl v => .int (BitVec.ofNat 32 i) :: leaves t v
  | .cons _ _ ts, i, .inr v => leavesAlts ts (i + 1) v
end

mutual
/-- Types all of whose values have the same number of leaves, alternative by alternative: no strings,
buffers or containers; and less than 2^32 alternatives. -/
def FixedShape : Ty → Prop
  | .empty => True
  | .uint => True
  | .int => True
  | .enum => True
  | .str => False
  | .buf => False
  | .fixed _ => True
  | .cont _ => False
  | .seq ts => FixedShapeAll ts
  | .record ts => FixedShapeAll ts
  | .var t ts => FixedShape t ∧ FixedShapeAll ts ∧ ts.length + 1 < 2 ^ 32
def FixedShapeAll : Tys → Prop
  | .nil => True
  | .cons _ t ts => FixedShape t ∧ FixedShapeAll ts
end

mutual
/-- A type and all the types inside it that hashing goes into; it does not go into empty members. -/
def parts : Ty → List Ty
  | .seq ts => .seq ts :: partsAll ts
  | .record ts => .record ts :: partsAll ts
  | .var t ts => .var t ts :: (parts t ++ partsAll ts)
  | t => [t]
def partsAll : Tys → List Ty
  | .nil => []
  | .cons _ t ts => parts t ++ partsAll ts
end

/-- The alternatives of a variant after the first. -/
def alternatives : Tys → List Ty
  | .nil => []
  | .cons _ t ts => t :: alternatives ts

/-- No obstacle to hashing: the elements of a container are numbers, enumerations or strings, and no
alternative of a variant is empty. -/
def Allowed : Ty → Prop
  | .cont t => t = .uint ∨ t = .int ∨ t = .enum ∨ t = .str
  | .var t ts => .empty ∉ t :: alternatives ts
  | _ => True

end Nbdl.Hash.Spec
