import Verif.Common
import Verif.Hash.Model
/-!
# Unique identifiers

Models `/repo/include/nbdl/uid.hpp`: sixteen bytes (37–70), their generators in the browser (82–94)
and elsewhere (95–112), equality (55–58) and hash (120–133).

Simplifications.
* `std::mt19937` is any function from its 32-bit seed to its sequence of 32-bit outputs.
* `std::random_device` is an arbitrary source of 32-bit numbers.
* Reading the four numbers as sixteen bytes (110) is little-endian, as on the platforms supported.
* `emscripten_random` is declared to return a `float`; it is `Math.random()`, a multiple `k / 2^53` of
  `2^-53` which is less than one, converted to `float` as WebAssembly does: to the nearest, ties to
  even.
-/
namespace Nbdl.Uid

/-- `uid`, 37–70: sixteen bytes. -/
structure Uid where
  bytes : List Byte
deriving DecidableEq, Repr

/-- `operator==`, 55–56. -/
def Uid.eq (x y : Uid) : Bool := x.bytes == y.bytes

/-- `std::hash<uid>`, 124–132, with the hash `h` of a byte and `hash_combine`. -/
def Uid.hash (h : Byte → BitVec 64) (x : Uid) : BitVec 64 :=
  x.bytes.foldl (fun d b => Hash.combine d (h b)) 0#64

/-- The bytes of a `uint32_t` in memory, 110. -/
def wordBytes (w : BitVec 32) : List Byte :=
  [w.setWidth 8, (w >>> 8).setWidth 8, (w >>> 16).setWidth 8, (w >>> 24).setWidth 8]

/-- The `k`-th value of a generator whose engine `mt` was given the seed, 102–111: the next four
numbers of the engine.  (The braces fix the order of the four calls.) -/
def generate (mt : BitVec 32 → Nat → BitVec 32) (seed : BitVec 32) (k : Nat) : Uid :=
  ⟨wordBytes (mt seed (4 * k)) ++ wordBytes (mt seed (4 * k + 1)) ++
    wordBytes (mt seed (4 * k + 2)) ++ wordBytes (mt seed (4 * k + 3))⟩

/-- `k / 2^53` as a `float`, times `2^53`: 24 significant bits, to the nearest, ties to even. -/
def toFloat (k : Nat) : Nat :=
  if k < 2 ^ 24 then k
  else
    let u := 2 ^ (Nat.log2 k - 23)
    let q := k / u
    let r := k % u
    if 2 * r < u ∨ (2 * r = u ∧ q % 2 = 0) then q * u else (q + 1) * u

/-- `x = (uint8_t) (emscripten_random() * 256)`, 90: a conversion of a number whose integral part is
not a `uint8_t` is undefined.  The product with a power of two is exact. -/
def browserByte (k : Nat) : Cpp Byte :=
  let v := toFloat k * 256 / 2 ^ 53
  if v < 256 then .ok (BitVec.ofNat 8 v) else .ub

/-- The bytes drawn for the random numbers `ks`, 87–91. -/
def browserBytes : List Nat → Cpp (List Byte)
  | [] => .ok []
  | k :: ks => (browserByte k).bind fun b => (browserBytes ks).map (b :: ·)

/-- The browser's generator, 85–93, with the random numbers it gets. -/
def browserUid (ks : List Nat) : Cpp Uid := (browserBytes (ks.take 16)).map Uid.mk

end Nbdl.Uid
