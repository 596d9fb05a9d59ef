import Verif.Bind.Model
/-!
# Hashing bound values

Models `/repo/include/nbdl/binder/hash.hpp` and `/repo/include/nbdl/detail/hash_combine.hpp`, for the
bindable types of the JSON model.
-/
namespace Nbdl.Hash
open Nbdl.Bind

/-- What `std::hash` is applied to. -/
inductive Leaf where
  | uint (n : BitVec 32)
  | int (n : BitVec 32)
  | enum (n : BitVec 32)
  | byte (b : Byte)
  | text (s : List Byte)
  deriving DecidableEq

/-- `hash_combine`, hash_combine.hpp:18-23, with a 64 bit `std::size_t`; `h` is the result of `std::hash`. -/
def combine (seed h : BitVec 64) : BitVec 64 :=
  seed ^^^ (h + 0x9e3779b9#64 + (seed <<< 6) + (seed >>> 2))

/-- The element of a container, on which `std::hash` is called directly (hash.hpp:51-56). -/
def elem : (t : Ty) → denote t → Leaf
  | .uint, n => .uint n
  | .int, n => .int n
  | .enum, n => .enum n
  | .str, s => .text s
  | _, _ => .text []

/-- Types for which `std::hash` is defined (it is not for containers, sequences or variants). -/
def elemHashable : Ty → Bool
  | .uint => true
  | .int => true
  | .enum => true
  | .str => true
  | _ => false

mutual
/-- Does hashing compile?  The lambda for variants (hash.hpp:43-49) takes two arguments, but
`filter_empties` (detail/filter_empties.hpp:31-46) leaves one if the alternative is empty. -/
def hashable : Ty → Bool
  | .empty => true
  | .uint => true
  | .int => true
  | .enum => true
  | .str => true
  | .buf => true
  | .fixed _ => true
  | .cont t => elemHashable t
  | .seq ts => hashableAll ts
  | .record ts => hashableAll ts
  | .var t ts => !t.isEmpty && hashable t && altsHashable ts
def hashableAll : Tys → Bool
  | .nil => true
  | .cons _ t ts => (t.isEmpty || hashable t) && hashableAll ts
def altsHashable : Tys → Bool
  | .nil => true
  | .cons _ t ts => !t.isEmpty && hashable t && altsHashable ts
end

/-- The loop over a container, hash.hpp:51-56 -/
def bindElems {α : Type} (H : Leaf → BitVec 64) (leaf : α → Leaf) : List α → BitVec 64 → BitVec 64
  | [], d => d
  | x :: xs, d => bindElems H leaf xs (combine d (H (leaf x)))

mutual
/-- `writer::bind`, hash.hpp:33-61: the digest after binding a value.  `H` is `std::hash`. -/
def bind (H : Leaf → BitVec 64) : (t : Ty) → denote t → BitVec 64 → BitVec 64
  -- a sequence without members
  | .empty, _, d => d
  | .uint, n, d => combine d (H (.uint n))
  | .int, n, d => combine d (H (.int n))
  | .enum, n, d => combine d (H (.enum n))
  | .str, s, d => bindElems H .byte s d
  | .buf, b, d => bindElems H .byte b d
  | .fixed _, b, d => bindElems H .byte (List.ofFn b) d
  | .cont t, vs, d => bindElems H (elem t) vs d
  | .seq ts, v, d => bindMany H ts v d
  | .record ts, v, d => bindMany H ts v d
  | .var t _, .inl v, d => bind H t v (combine d (H (.int 0#32)))
  | .var _ ts, .inr v, d => bindAlts H ts 1 v d
def bindMany (H : Leaf → BitVec 64) : (ts : Tys) → members ts → BitVec 64 → BitVec 64
  | .nil, _, d => d
  | .cons _ t ts, v, d => if t.isEmpty then bindMany H ts v.2 d else bindMany H ts v.2 (bind H t v.1 d)
def bindAlts (H : Leaf → BitVec 64) : (ts : Tys) → Nat → alts ts → BitVec 64 → BitVec 64
  | .cons _ t _, i, .inl v, d => bind H t v (combine d (H (.int (BitVec.ofNat 32 i))))
  | .cons _ _ ts, i, .inr v, d => bindAlts H ts (i + 1) v d
end

/-- `nbdl::binder::hash`, hash.hpp:65-74 -/
def hash (H : Leaf → BitVec 64) (t : Ty) (v : denote t) : BitVec 64 := bind H t v 0#64

end Nbdl.Hash
