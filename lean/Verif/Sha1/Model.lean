import Verif.Common
/-!
# SHA-1

Models `/repo/include/nbdl/detail/beast_sha1.hpp`.  The context's 64-byte buffer is modelled by the
list of its first `buflen` bytes (the bytes after them are never read before being written).
Sizes and the block counter are 64-bit in the code; only `total_bits` (lines 275-276) can wrap in
practice and is taken modulo 2^64.
-/
namespace Nbdl.Sha1

abbrev W32 := BitVec 32

/-- `sha1::rol`, beast_sha1.hpp:34-39. -/
def rol (value : W32) (bits : Nat) : W32 := (value <<< bits) ||| (value >>> (32 - bits))

/-- Element of a word array (arrays are lists here, 5 registers and 16 block words). -/
def at_ (l : List W32) (i : Nat) : W32 := l.getD i 0

/-- `sha1::blk`, beast_sha1.hpp:41-48. -/
def blk (block : List W32) (i : Nat) : W32 :=
  rol (at_ block ((i + 13) % 16) ^^^ at_ block ((i + 8) % 16) ^^^ at_ block ((i + 2) % 16)
    ^^^ at_ block i) 1

/-- One line `Rk(block, v, w, x, y, z, i);` of `transform`: `k` selects `R0`…`R4`, the registers
a…e are numbered 0…4. -/
structure Op where
  k : Nat
  v : Nat
  w : Nat
  x : Nat
  y : Nat
  z : Nat
  i : Nat
  deriving DecidableEq, Repr

/-- The boolean function in `R0`/`R1` (56, 68), `R2` (79), `R3` (90), `R4` (101). -/
def f (k : Nat) (w x y : W32) : W32 :=
  if k ≤ 1 then (w &&& (x ^^^ y)) ^^^ y
  else if k = 2 then w ^^^ x ^^^ y
  else if k = 3 then ((w ||| x) &&& y) ||| (w &&& x)
  else w ^^^ x ^^^ y

/-- The constants in the same lines. -/
def konst (k : Nat) : W32 :=
  if k ≤ 1 then 0x5a827999#32 else if k = 2 then 0x6ed9eba1#32
  else if k = 3 then 0x8f1bbcdc#32 else 0xca62c1d6#32

/-- `R0` (50-58) to `R4` (94-103): `R0` uses `block[i]` as it is, the others first replace it by
`blk(block, i)`. -/
def applyOp (s : List W32 × List W32) (o : Op) : List W32 × List W32 :=
  let regs := s.1
  let block := if o.k = 0 then s.2 else s.2.set o.i (blk s.2 o.i)
  let z := at_ regs o.z + (f o.k (at_ regs o.w) (at_ regs o.x) (at_ regs o.y)
    + at_ block o.i + konst o.k + rol (at_ regs o.v) 5)
  ((regs.set o.z z).set o.w (rol (at_ regs o.w) 30), block)

/-- The eighty calls in `transform`, beast_sha1.hpp:129-208, in order. -/
def ops : List Op :=
  [
   ⟨0,0,1,2,3,4,0⟩, ⟨0,4,0,1,2,3,1⟩, ⟨0,3,4,0,1,2,2⟩, ⟨0,2,3,4,0,1,3⟩, ⟨0,1,2,3,4,0,4⟩,
   ⟨0,0,1,2,3,4,5⟩, ⟨0,4,0,1,2,3,6⟩, ⟨0,3,4,0,1,2,7⟩, ⟨0,2,3,4,0,1,8⟩, ⟨0,1,2,3,4,0,9⟩,
   ⟨0,0,1,2,3,4,10⟩, ⟨0,4,0,1,2,3,11⟩, ⟨0,3,4,0,1,2,12⟩, ⟨0,2,3,4,0,1,13⟩, ⟨0,1,2,3,4,0,14⟩,
   ⟨0,0,1,2,3,4,15⟩, ⟨1,4,0,1,2,3,0⟩, ⟨1,3,4,0,1,2,1⟩, ⟨1,2,3,4,0,1,2⟩, ⟨1,1,2,3,4,0,3⟩,
   ⟨2,0,1,2,3,4,4⟩, ⟨2,4,0,1,2,3,5⟩, ⟨2,3,4,0,1,2,6⟩, ⟨2,2,3,4,0,1,7⟩, ⟨2,1,2,3,4,0,8⟩,
   ⟨2,0,1,2,3,4,9⟩, ⟨2,4,0,1,2,3,10⟩, ⟨2,3,4,0,1,2,11⟩, ⟨2,2,3,4,0,1,12⟩, ⟨2,1,2,3,4,0,13⟩,
   ⟨2,0,1,2,3,4,14⟩, ⟨2,4,0,1,2,3,15⟩, ⟨2,3,4,0,1,2,0⟩, ⟨2,2,3,4,0,1,1⟩, ⟨2,1,2,3,4,0,2⟩,
   ⟨2,0,1,2,3,4,3⟩, ⟨2,4,0,1,2,3,4⟩, ⟨2,3,4,0,1,2,5⟩, ⟨2,2,3,4,0,1,6⟩, ⟨2,1,2,3,4,0,7⟩,
   ⟨3,0,1,2,3,4,8⟩, ⟨3,4,0,1,2,3,9⟩, ⟨3,3,4,0,1,2,10⟩, ⟨3,2,3,4,0,1,11⟩, ⟨3,1,2,3,4,0,12⟩,
   ⟨3,0,1,2,3,4,13⟩, ⟨3,4,0,1,2,3,14⟩, ⟨3,3,4,0,1,2,15⟩, ⟨3,2,3,4,0,1,0⟩, ⟨3,1,2,3,4,0,1⟩,
   ⟨3,0,1,2,3,4,2⟩, ⟨3,4,0,1,2,3,3⟩, ⟨3,3,4,0,1,2,4⟩, ⟨3,2,3,4,0,1,5⟩, ⟨3,1,2,3,4,0,6⟩,
   ⟨3,0,1,2,3,4,7⟩, ⟨3,4,0,1,2,3,8⟩, ⟨3,3,4,0,1,2,9⟩, ⟨3,2,3,4,0,1,10⟩, ⟨3,1,2,3,4,0,11⟩,
   ⟨4,0,1,2,3,4,12⟩, ⟨4,4,0,1,2,3,13⟩, ⟨4,3,4,0,1,2,14⟩, ⟨4,2,3,4,0,1,15⟩, ⟨4,1,2,3,4,0,0⟩,
   ⟨4,0,1,2,3,4,1⟩, ⟨4,4,0,1,2,3,2⟩, ⟨4,3,4,0,1,2,3⟩, ⟨4,2,3,4,0,1,4⟩, ⟨4,1,2,3,4,0,5⟩,
   ⟨4,0,1,2,3,4,6⟩, ⟨4,4,0,1,2,3,7⟩, ⟨4,3,4,0,1,2,8⟩, ⟨4,2,3,4,0,1,9⟩, ⟨4,1,2,3,4,0,10⟩,
   ⟨4,0,1,2,3,4,11⟩, ⟨4,4,0,1,2,3,12⟩, ⟨4,3,4,0,1,2,13⟩, ⟨4,2,3,4,0,1,14⟩, ⟨4,1,2,3,4,0,15⟩]

/-- `sha1::transform`, beast_sha1.hpp:118-215. -/
def transform (digest block : List W32) : List W32 :=
  let r := (ops.foldl applyOp (digest, block)).1
  [at_ digest 0 + at_ r 0, at_ digest 1 + at_ r 1, at_ digest 2 + at_ r 2,
   at_ digest 3 + at_ r 3, at_ digest 4 + at_ r 4]

/-- Byte of a buffer as a 32-bit word. -/
def wordAt (p : List Byte) (i : Nat) : W32 := (p.getD i 0).setWidth 32

/-- `sha1::make_block`, beast_sha1.hpp:105-116. -/
def makeBlock (p : List Byte) : List W32 :=
  (List.range 16).map fun i =>
    wordAt p (4 * i + 3) ||| wordAt p (4 * i + 2) <<< 8
      ||| wordAt p (4 * i + 1) <<< 16 ||| wordAt p (4 * i) <<< 24

/-- `sha1_context`, beast_sha1.hpp:219-228. -/
structure Ctx where
  blocks : Nat
  digest : List W32
  buf : List Byte
  deriving DecidableEq, Repr

/-- `init`, beast_sha1.hpp:230-241. -/
def init : Ctx :=
  ⟨0, [0x67452301#32, 0xefcdab89#32, 0x98badcfe#32, 0x10325476#32, 0xc3d2e1f0#32], []⟩

/-- `update`, beast_sha1.hpp:243-267.  The last branch (`n = 0` with a full buffer) cannot be
reached: the buffer is emptied whenever it is full. -/
def update (ctx : Ctx) (p : List Byte) : Ctx :=
  let n := min p.length (64 - ctx.buf.length)
  let buf := ctx.buf ++ p.take n
  if buf.length ≠ 64 then { ctx with buf := buf }
  else if n = 0 then ctx
  else
    update { blocks := ctx.blocks + 1, digest := transform ctx.digest (makeBlock buf), buf := [] }
      (p.drop n)
termination_by p.length
decreasing_by simp only [List.length_drop]; omega

/-- The four bytes written for one digest word, beast_sha1.hpp:295-303. -/
def wordBytes (w : W32) : List Byte :=
  [(w >>> 24).setWidth 8, (w >>> 16).setWidth 8, (w >>> 8).setWidth 8, w.setWidth 8]

/-- `finish`, beast_sha1.hpp:268-304. -/
def finish (ctx : Ctx) : List Byte :=
  let totalBits := (ctx.blocks * 64 + ctx.buf.length) * 8 % 2 ^ 64
  let buf := ctx.buf ++ [0x80#8]
  let buflen := buf.length
  let block := makeBlock (buf ++ List.replicate (64 - buflen) 0#8)
  let (digest, block) :=
    if buflen > 64 - 8 then
      (transform ctx.digest block, List.replicate 14 0#32 ++ block.drop 14)
    else (ctx.digest, block)
  let block := (block.set 15 (BitVec.ofNat 32 totalBits)).set 14 (BitVec.ofNat 32 (totalBits >>> 32))
  (transform digest block).flatMap wordBytes

end Nbdl.Sha1
