import Verif.Common
/-!
Independent specification of base64 (RFC 4648 section 4), by bits.
-/
namespace Nbdl.Base64.Spec

/-- The bits of a byte, most significant first. -/
def byteBits (b : Byte) : List Bool :=
  [b.getLsbD 7, b.getLsbD 6, b.getLsbD 5, b.getLsbD 4,
   b.getLsbD 3, b.getLsbD 2, b.getLsbD 1, b.getLsbD 0]

/-- Value of a bit string, most significant first. -/
def bitsVal (l : List Bool) : Nat := l.foldl (fun acc b => 2 * acc + b.toNat) 0

/-- Cut a bit string in groups of six, zero bits added on the right of the last group. -/
def groups (l : List Bool) : List Nat :=
  match l with
  | [] => []
  | b :: bs =>
    bitsVal ((b :: bs).take 6 ++ List.replicate (6 - (b :: bs).length) false)
      :: groups ((b :: bs).drop 6)
termination_by l.length

/-- The base64 alphabet. -/
def alphabet (n : Nat) : Byte :=
  if n < 26 then BitVec.ofNat 8 ('A'.toNat + n)
  else if n < 52 then BitVec.ofNat 8 ('a'.toNat + (n - 26))
  else if n < 62 then BitVec.ofNat 8 ('0'.toNat + (n - 52))
  else if n = 62 then BitVec.ofNat 8 '+'.toNat
  else BitVec.ofNat 8 '/'.toNat

/-- The pad character `=`. -/
def pad : Byte := BitVec.ofNat 8 '='.toNat

/-- RFC 4648: bits, groups of six, alphabet, padding to a multiple of four characters. -/
def encode (bytes : List Byte) : List Byte :=
  let s := (groups (bytes.flatMap byteBits)).map alphabet
  s ++ List.replicate ((4 - s.length % 4) % 4) pad

/-- Is `c` a character of the alphabet? -/
def IsAlpha (c : Byte) : Prop := ∃ n, n < 64 ∧ alphabet n = c

/-- Well-formed base64 text: a multiple of four characters, all from the alphabet except for at
most two final pad characters. -/
def WellFormed (t : List Byte) : Prop :=
  t.length % 4 = 0 ∧ ∃ core k, t = core ++ List.replicate k pad ∧ k ≤ 2 ∧ ∀ c ∈ core, IsAlpha c

end Nbdl.Base64.Spec
