import Verif.Common
/-!
Model of `/repo/include/nbdl/util/base64_encode.hpp` and
`/repo/include/nbdl/util/base64_decode.hpp`.
-/
namespace Nbdl.Base64

/-- base64_encode.hpp 21-24 `lookup`. -/
def lookup : List Byte :=
  ascii "ABCDEFGHIJKLMNOPQRSTUVWXYZabcdefghijklmnopqrstuvwxyz0123456789+/"

/-- The character `'='`. -/
def eqSign : Byte := 61#8

/-- base64_encode.hpp 26 `offsets`. -/
def offsets : List Nat := [26, 20, 14, 8]

/-- base64_encode.hpp 34: `(fragment & (0x3F << off)) >> off` on `uint32_t`
(`0x3F << 26` is an `int` shift, well defined modulo 2^32 since C++20). -/
def sextet (fragment : BitVec 32) (off : Nat) : Nat :=
  ((fragment &&& ((0x3F#32) <<< off)) >>> off).toNat

/-- base64_encode.hpp 28-37 `encode_fragment`: the characters written through `output_itr`.
The default of `getD` is never used: `sextet < 64` (`sextet_lt`) and `byteLength ≤ 3`. -/
def encodeFragment (fragment : BitVec 32) (byteLength : Nat) : List Byte :=
  if byteLength = 0 then []
  else (List.range (byteLength + 1)).map fun i =>
    lookup.getD (sextet fragment (offsets.getD i 0)) 0

/-- base64_encode.hpp 39-42 `encoding_length_padded` (without the overflow check, which is in
`encode`). -/
def encodingLengthPadded (n : Nat) : Nat :=
  4 * n / 3 + ((4 - ((4 * n / 3) % 4)) % 4)

/-- Integral promotion of a container element to `int` (then converted to `uint32_t`).
`ContiguousByteContainer` (concept/Container.hpp 30-32) only asks `sizeof(value_type) == 1`,
so the element type may be `signed char` (`sg = true`, sign extension) or `unsigned char`. -/
def promote (sg : Bool) (b : Byte) : BitVec 32 :=
  if sg then b.signExtend 32 else b.setWidth 32

/-- base64_encode.hpp 61-69: the loop over whole groups of three bytes. -/
def encodeRounds (sg : Bool) (buf : List Byte) (round : Nat) : List Byte :=
  (List.range (round / 3)).flatMap fun g =>
    encodeFragment
      (promote sg (buf.getD (3 * g) 0) <<< 24
        ||| promote sg (buf.getD (3 * g + 1) 0) <<< 16
        ||| promote sg (buf.getD (3 * g + 2) 0) <<< 8) 3

/-- base64_encode.hpp 71-75: `extras`. -/
def extras (sg : Bool) (buf : List Byte) (round extra : Nat) : BitVec 32 :=
  (List.range extra).foldl
    (fun acc i => acc ||| promote sg (buf.getD (round + i) 0) <<< (8 * (3 - i))) 0#32

/-- base64_encode.hpp 55-76: everything written through `output_itr`. -/
def encodeWrites (sg : Bool) (buf : List Byte) : List Byte :=
  let length := buf.length
  let extra := length % 3
  let round := length - extra
  encodeRounds sg buf round ++ encodeFragment (extras sg buf round extra) extra

/-- base64_encode.hpp 47-81 `base64_encode_fn::operator()`.  Undefined behaviour when `4*n`
overflows `int` (line 41), or if the writes ran past the end of the pre-filled output.  For sizes of `2^31` and
more, which `int` cannot hold, this is not what happens; `encodeAny` is the function for all sizes. -/
def encode (sg : Bool) (buf : List Byte) : Cpp (List Byte) :=
  if 2 ^ 31 ≤ 4 * buf.length then .ub
  else
    let outLen := encodingLengthPadded buf.length
    let w := encodeWrites sg buf
    if outLen < w.length then .ub
    else .ok (w ++ List.replicate (outLen - w.length) eqSign)

/-- base64_decode.hpp 20-21. -/
def PADDING : Nat := 65
/-- base64_decode.hpp 20-21. -/
def INVALID : Nat := 64

/-- base64_decode.hpp 23-46 `reverse_lookup`. -/
def reverseLookupTable : List Nat := [
  64,64,64,64,64,64,64,64,64,64,64,64,64,64,64,64,
  64,64,64,64,64,64,64,64,64,64,64,64,64,64,64,64,
  64,64,64,64,64,64,64,64,64,64,64,62,64,64,64,63,
  52,53,54,55,56,57,58,59,60,61,64,64,64,65,64,64,
  64, 0, 1, 2, 3, 4, 5, 6, 7, 8, 9,10,11,12,13,14,
  15,16,17,18,19,20,21,22,23,24,25,64,64,64,64,64,
  64,26,27,28,29,30,31,32,33,34,35,36,37,38,39,40,
  41,42,43,44,45,46,47,48,49,50,51,64,64,64,64,64,
  64,64,64,64,64,64,64,64,64,64,64,64,64,64,64,64,
  64,64,64,64,64,64,64,64,64,64,64,64,64,64,64,64,
  64,64,64,64,64,64,64,64,64,64,64,64,64,64,64,64,
  64,64,64,64,64,64,64,64,64,64,64,64,64,64,64,64,
  64,64,64,64,64,64,64,64,64,64,64,64,64,64,64,64,
  64,64,64,64,64,64,64,64,64,64,64,64,64,64,64,64,
  64,64,64,64,64,64,64,64,64,64,64,64,64,64,64,64,
  64,64,64,64,64,64,64,64,64,64,64,64,64,64,64,64]

/-- base64_decode.hpp 23-46: indexing `reverse_lookup` by an `unsigned char` (256 entries, so
the default is never used). -/
def reverseLookup (c : Byte) : Nat := reverseLookupTable.getD c.toNat 0

/-- base64_decode.hpp 48. -/
def isInvalid (c : Byte) : Bool := reverseLookup c == INVALID
/-- base64_decode.hpp 49. -/
def isNotPadding (c : Byte) : Bool := reverseLookup c != PADDING

/-- base64_decode.hpp 51-66 `validate`. -/
def validate (b : List Byte) : Bool :=
  if b.length % 4 ≠ 0 then false
  else if b.any isInvalid then false
  else
    let tail := b.dropWhile (· != eqSign)
    if tail.length > 2 then false
    else if tail.any isNotPadding then false
    else true

/-- base64_decode.hpp 68-72. -/
def sourceLengthUnpadded (b : List Byte) : Nat := b.countP isNotPadding

/-- base64_decode.hpp 74-79 (int overflow of `3*n` is checked by the callers). -/
def targetDecodedLength (b : List Byte) : Nat := 3 * sourceLengthUnpadded b / 4

/-- base64_decode.hpp 109-115 / 126-132: assemble a fragment from `cnt` characters at `i`. -/
def decodeFragment (input : List Byte) (i cnt : Nat) : BitVec 32 :=
  (List.range cnt).foldl
    (fun acc j => acc ||| (BitVec.ofNat 32 (reverseLookup (input.getD (i + j) 0))) <<< offsets.getD j 0)
    0#32

/-- base64_decode.hpp 117-121 / 135-139: `*output_itr = fragment >> (k*8)` for
`k = 3, …, stop+1`. -/
def emit (fragment : BitVec 32) (stop : Nat) : List Byte :=
  (List.range (3 - stop)).map fun t => (fragment >>> ((3 - t) * 8)).setWidth 8

/-- base64_decode.hpp 134 `length_map`. -/
def lengthMap : List Nat := [3, 2, 2, 1, 0]

/-- base64_decode.hpp 101-140: everything written through `output_itr`. -/
def decodeWrites (input : List Byte) : List Byte :=
  let length := sourceLengthUnpadded input
  let round := length - length % 4
  let extra := length % 4
  ((List.range (round / 4)).flatMap fun g => emit (decodeFragment input (4 * g) 4) 0)
    ++ (if extra > 0 then emit (decodeFragment input round extra) (lengthMap.getD extra 0) else [])

/-- base64_decode.hpp 93-145 `decode`: writes over `output`; writing past its end is undefined. -/
def decodeInto (input output : List Byte) : Cpp (List Byte) :=
  let w := decodeWrites input
  if output.length < w.length then .ub else .ok (w ++ output.drop w.length)

/-- base64_decode.hpp 152-161: the one-argument entry point (output pre-filled with `'?'`), for texts with less
than `2^31` characters besides padding; `decodeAny1` is the function for all sizes. -/
def decode1 (input : List Byte) : Cpp (List Byte) :=
  if input.length = 0 then .ok []
  else if validate input = false then .ok []
  else if 2 ^ 31 ≤ 3 * sourceLengthUnpadded input then .ub
  else decodeInto input (List.replicate (targetDecodedLength input) 63#8)

/-- base64_decode.hpp 81-91 `prepare_output_buffer`: a `DynamicBuffer` is resized, any other
buffer must already have the right size. -/
def prepare (dynamic : Bool) (output : List Byte) (length : Nat) : Bool × List Byte :=
  if dynamic then
    (true, output.take length ++ List.replicate (length - output.length) 0#8)
  else (output.length == length, output)

/-- base64_decode.hpp 163-176: the two-argument entry point; returns the `bool` and the final
contents of `output`; for texts with less than `2^31` characters besides padding, `decodeAny2` is the function for
all sizes. -/
def decode2 (dynamic : Bool) (input output : List Byte) : Cpp (Bool × List Byte) :=
  if 2 ^ 31 ≤ 3 * sourceLengthUnpadded input then .ub
  else
    let (okSize, out) := prepare dynamic output (targetDecodedLength input)
    if okSize = false then .ok (false, out)
    else if out.length = 0 then .ok (true, out)
    else if validate input = false then .ok (false, out)
    else (decodeInto input out).map fun o => (true, o)

/-! ## Sizes that `int` cannot hold -/

/-- The conversion of a size to `int` (base64_encode.hpp 39, 55, base64_decode.hpp 77, 82, 101): modulo `2^32`. -/
def toInt (n : Nat) : Int := (BitVec.ofNat 32 n).toInt

/-- base64_encode.hpp 47-81 for buffers of all sizes; `none` is `std::length_error`, thrown by the constructor of
`std::string` for a negative length (line 52).  With a negative `length` neither loop is entered and
`encode_fragment` writes nothing (62, 72, 31); with another one just its first `length` bytes are looked at. -/
def encodeAny (sg : Bool) (buf : List Byte) : Cpp (Option (List Byte)) :=
  if 4 * toInt buf.length < -2 ^ 31 ∨ 2 ^ 31 ≤ 4 * toInt buf.length then .ub
  else if (4 * toInt buf.length).tdiv 3 + (4 - ((4 * toInt buf.length).tdiv 3).tmod 4).tmod 4 < 0 then .ok none
  else if toInt buf.length < 0 then
    .ok (some (List.replicate
      ((4 * toInt buf.length).tdiv 3 + (4 - ((4 * toInt buf.length).tdiv 3).tmod 4).tmod 4).toNat eqSign))
  else (encode sg (buf.take (toInt buf.length).toNat)).map some

/-- base64_decode.hpp 152-161 for texts of all sizes; `none` is `std::length_error`, thrown by the constructor of
`std::vector` for a negative length (line 158).  If `length` (101) is negative, but not the size, neither loop is
entered; else just the first `length` characters are looked at, which are no padding in a valid text. -/
def decodeAny1 (input : List Byte) : Cpp (Option (List Byte)) :=
  if input.length = 0 then .ok (some [])
  else if validate input = false then .ok (some [])
  else if 3 * toInt (sourceLengthUnpadded input) < -2 ^ 31 ∨ 2 ^ 31 ≤ 3 * toInt (sourceLengthUnpadded input) then .ub
  else if (3 * toInt (sourceLengthUnpadded input)).tdiv 4 < 0 then .ok none
  else (decodeInto (input.take (toInt (sourceLengthUnpadded input)).toNat)
    (List.replicate ((3 * toInt (sourceLengthUnpadded input)).tdiv 4).toNat 63#8)).map some

/-- base64_decode.hpp 81-91 for a length that may be negative: `resize` throws `std::length_error` (`none`), and no
buffer has the size that it is converted to. -/
def prepareAny (dynamic : Bool) (output : List Byte) (length : Int) : Option (Bool × List Byte) :=
  if length < 0 then (if dynamic then none else some (false, output))
  else some (prepare dynamic output length.toNat)

/-- base64_decode.hpp 163-176 for texts of all sizes, see `decodeAny1`. -/
def decodeAny2 (dynamic : Bool) (input output : List Byte) : Cpp (Option (Bool × List Byte)) :=
  if 3 * toInt (sourceLengthUnpadded input) < -2 ^ 31 ∨ 2 ^ 31 ≤ 3 * toInt (sourceLengthUnpadded input) then .ub
  else match prepareAny dynamic output ((3 * toInt (sourceLengthUnpadded input)).tdiv 4) with
    | none => .ok none
    | some (okSize, out) =>
      if okSize = false then .ok (some (false, out))
      else if out.length = 0 then .ok (some (true, out))
      else if validate input = false then .ok (some (false, out))
      else (decodeInto (input.take (toInt (sourceLengthUnpadded input)).toNat) out).map fun o => some (true, o)

end Nbdl.Base64
