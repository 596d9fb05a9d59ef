import Verif.Common
/-!
# FIPS 180-4 SHA-1

An independent transcription of the standard (sections 4.1.1, 4.2.1, 5.1.1, 5.3.1, 6.1.2).
-/
namespace Nbdl.Sha1.Spec

abbrev W := BitVec 32

/-- 4.1.1 -/
def ch (x y z : W) : W := (x &&& y) ^^^ (~~~ x &&& z)
def parity (x y z : W) : W := x ^^^ y ^^^ z
def maj (x y z : W) : W := (x &&& y) ^^^ (x &&& z) ^^^ (y &&& z)

def ft (t : Nat) (x y z : W) : W :=
  if t ≤ 19 then ch x y z else if t ≤ 39 then parity x y z
  else if t ≤ 59 then maj x y z else parity x y z

/-- 4.2.1 -/
def kt (t : Nat) : W :=
  if t ≤ 19 then 0x5a827999#32 else if t ≤ 39 then 0x6ed9eba1#32
  else if t ≤ 59 then 0x8f1bbcdc#32 else 0xca62c1d6#32

/-- 5.1.1: append a one bit, then `k` zero bits with `l + 1 + k ≡ 448 mod 512`, `k` smallest, then
the length in bits as a 64-bit number.  In bytes: 0x80, then zeros up to 56 modulo 64. -/
def pad (m : List Byte) : List Byte :=
  m ++ 0x80#8 :: List.replicate ((119 - m.length % 64) % 64) 0#8
    ++ (List.range 8).map fun i => BitVec.ofNat 8 ((8 * m.length) >>> (8 * (7 - i)))

/-- 5.2.1: word `i` of a block of bytes, big-endian. -/
def word (p : List Byte) (i : Nat) : W :=
  p.getD (4 * i) 0 ++ p.getD (4 * i + 1) 0 ++ p.getD (4 * i + 2) 0 ++ p.getD (4 * i + 3) 0

/-- 6.1.2 step 1: the message schedule. -/
def sched (m : Nat → W) (t : Nat) : W :=
  if _h : t < 16 then m t
  else (sched m (t - 3) ^^^ sched m (t - 8) ^^^ sched m (t - 14) ^^^ sched m (t - 16)).rotateLeft 1
termination_by t

/-- The working variables. -/
structure Vars where
  a : W
  b : W
  c : W
  d : W
  e : W
  deriving DecidableEq, Repr

/-- 6.1.2 step 3. -/
def round (w : Nat → W) (s : Vars) (t : Nat) : Vars :=
  ⟨s.a.rotateLeft 5 + ft t s.b s.c s.d + s.e + kt t + w t, s.a, s.b.rotateLeft 30, s.c, s.d⟩

/-- 6.1.2 steps 2–4. -/
def compress (h : Vars) (m : Nat → W) : Vars :=
  let s := (List.range 80).foldl (round (sched m)) h
  ⟨s.a + h.a, s.b + h.b, s.c + h.c, s.d + h.d, s.e + h.e⟩

/-- 5.3.1 -/
def h0 : Vars := ⟨0x67452301#32, 0xefcdab89#32, 0x98badcfe#32, 0x10325476#32, 0xc3d2e1f0#32⟩

/-- 6.1.2: the hash of a padded message, block `i` being bytes `64 i … 64 i + 63`. -/
def hashBlocks (h : Vars) (p : List Byte) : Vars :=
  (List.range (p.length / 64)).foldl (fun h i => compress h (word ((p.drop (64 * i)).take 64))) h

def bytes (w : W) : List Byte :=
  (List.range 4).map fun i => BitVec.ofNat 8 (w.toNat >>> (8 * (3 - i)))

/-- The message digest. -/
def sha1 (m : List Byte) : List Byte :=
  let h := hashBlocks h0 (pad m)
  bytes h.a ++ bytes h.b ++ bytes h.c ++ bytes h.d ++ bytes h.e

end Nbdl.Sha1.Spec
