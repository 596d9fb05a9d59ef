import Verif.Common
/-!
Model of the websocket framing layer:
`/repo/include/nbdl/websocket/detail/message_sender.hpp` and
`/repo/include/nbdl/websocket/detail/message_reader.hpp`.

The TCP stream is the list of bytes received so far.  `asio::async_read` of `n` bytes completes
exactly when `n` more bytes are available (how TCP chops the stream is invisible); an incomplete
read is the outcome `waiting`.  A socket error while waiting is left to the endpoint model.
-/
namespace Nbdl.Ws

/-! ## Sender -/

/-- message_sender.hpp 25-34 `opcode_kind`. -/
def opContinuation : Byte := 0x0#8
/-- message_sender.hpp 25-34 `opcode_kind`. -/
def opText : Byte := 0x1#8
/-- message_sender.hpp 25-34 `opcode_kind`. -/
def opBinary : Byte := 0x2#8
/-- message_sender.hpp 25-34 `opcode_kind`. -/
def opClose : Byte := 0x8#8

/-- message_sender.hpp 66-69 `apply_fin_bit`. -/
def applyFinBit (header : Byte) : Byte := header ||| (1#8 <<< 7)

/-- message_sender.hpp 86-116 `encoded_length_buffer`; storing a `size_t` in an `unsigned char`
keeps the low eight bits. -/
def encodedLength (n : Nat) : List Byte :=
  if n < 126 then [BitVec.ofNat 8 n]
  else if n < 65536 then [126#8, BitVec.ofNat 8 (n >>> 8), BitVec.ofNat 8 n]
  else [127#8, BitVec.ofNat 8 (n >>> 56), BitVec.ofNat 8 (n >>> 48), BitVec.ofNat 8 (n >>> 40),
    BitVec.ofNat 8 (n >>> 32), BitVec.ofNat 8 (n >>> 24), BitVec.ofNat 8 (n >>> 16),
    BitVec.ofNat 8 (n >>> 8), BitVec.ofNat 8 n]

/-- message_sender.hpp 118-134 `send_frame_impl`: the bytes of one gathered write. -/
def sendFrame (header : Byte) (payload : List Byte) : List Byte :=
  header :: (encodedLength payload.length ++ payload)

/-- message_sender.hpp 136-174 `send_message_impl`, all writes succeeding: the frames written for
the range `[begin, end)` starting with `header`.  `frag_end > end` compares addresses
(`begin + max > end`); forming the past-the-end pointer is taken as plain address arithmetic, and so is
`&(*begin)` (150) of an empty payload.
`hmax` is the template precondition `MaxFrameSize > 0`. -/
def sendMessageImpl (max : Nat) (hmax : 0 < max) (header : Byte) (p : List Byte) :
    List (List Byte) :=
  if max > p.length then
    [sendFrame (applyFinBit header) p]
  else if h : p.drop max = [] then
    [sendFrame header (p.take max)]
  else
    sendFrame header (p.take max) :: sendMessageImpl max hmax opContinuation (p.drop max)
termination_by p.length
decreasing_by
  have : p ≠ [] := by rintro rfl; simp at h
  have := List.length_pos_iff.2 this
  simp; omega

/-- message_sender.hpp 39: default `MaxFrameSize`, the one used by `endpoint_impl`. -/
def maxFrameSize : Nat := 125

/-- message_sender.hpp 176-189 `send_impl_fn<opcode>`: the bytes put on the wire for a message. -/
def sendMessage (max : Nat) (hmax : 0 < max) (opcode : Byte) (p : List Byte) : List Byte :=
  (sendMessageImpl max hmax opcode p).flatten

/-! ## Reader -/

/-- message_reader.hpp 72 / 79 / 122: `(c >> 7) != 0`. -/
def highBit (c : Byte) : Bool := c >>> 7 != 0#8

/-- message_reader.hpp 95, 141: `buf_1[1] & 0x7F`. -/
def lengthCode (b1 : Byte) : Nat := (b1 &&& 0x7F#8).toNat

/-- `int << k` for a promoted byte.  `hw = false` is the C++ rule: undefined for `k ≥ 32`.
`hw = true` is what x86 does with the shift count (masked to five bits). The result is then
converted to `uint64_t`, sign extended. -/
def shiftByte (hw : Bool) (b : Byte) (k : Nat) : Cpp (BitVec 64) :=
  if 32 ≤ k ∧ hw = false then .ub
  else .ok (((b.setWidth 32 : BitVec 32) <<< (k % 32)).signExtend 64)

/-- message_reader.hpp 146-149 / 154-157: `for i: length |= ext[n-1-i] << (8*i)`. -/
def orBytes (hw : Bool) (ext : List Byte) : Nat → Cpp (BitVec 64)
  | 0 => .ok 0#64
  | i + 1 => (orBytes hw ext i).bind fun acc =>
      (shiftByte hw (ext.getD (ext.length - 1 - i) 0) (8 * i)).map fun v => acc ||| v

/-- message_reader.hpp 136-164 `get_payload_length`, then the narrowing `const int length`
(168, 202).  A negative `int` length makes `payload.resize` blow up; modelled as `ub`. -/
def getPayloadLength (hw : Bool) (b1 : Byte) (ext : List Byte) : Cpp Nat :=
  if lengthCode b1 = 126 ∨ lengthCode b1 = 127 then
    (orBytes hw ext ext.length).bind fun v =>
      let asInt := v.toNat % 2 ^ 32
      if asInt < 2 ^ 31 then .ok asInt else .ub
  else .ok (lengthCode b1)

/-- message_reader.hpp 186-192: `for (i < length) payload[i] ^= mask_key[i % 4]` — from index 0 of
the accumulated payload. -/
def unmask (p key : List Byte) (length : Nat) : List Byte :=
  p.mapIdx fun i b => if i < length then b ^^^ key.getD (i % 4) 0 else b

/-- Result of one pass of the reader's loop (one frame). -/
inductive Step where
  /-- a read is incomplete -/
  | waiting
  /-- undefined behaviour -/
  | ub
  /-- data frame read: FIN bit, accumulated payload, remaining stream -/
  | data (fin : Bool) (payload rest : List Byte)
  /-- close frame read, with its payload -/
  | close (payload : List Byte)
  /-- ping header read (its payload, if any, stays in the stream) -/
  | ping (rest : List Byte)
  /-- pong header read (its payload, if any, stays in the stream) -/
  | pong (rest : List Byte)
  /-- unknown opcode -/
  | badInput
deriving DecidableEq, Repr

/-- message_reader.hpp 166-197 `read_payload` / 200-230 `read_close_payload` after the header:
append `length` bytes (close: replace), unmask if masked.  `&payload[current_offset]` (177) is taken as plain address
arithmetic also if `length` is zero (it is one past the end then, which `std::string` allows). -/
def readPayload (hw : Bool) (b1 : Byte) (ext key acc s : List Byte)
    (k : List Byte → List Byte → Step) : Step :=
  match getPayloadLength hw b1 ext with
  | .ub => .ub
  | .ok n =>
    if s.length < n then .waiting
    else
      let p := acc ++ s.take n
      k (if highBit b1 then unmask p key n else p) (s.drop n)

/-- Number of extended length bytes, message_reader.hpp 97-116. -/
def extN (b1 : Byte) : Nat := if lengthCode b1 = 126 then 2 else if lengthCode b1 = 127 then 8 else 0

/-- Number of mask key bytes, message_reader.hpp 122-133. -/
def maskN (b1 : Byte) : Nat := if highBit b1 then 4 else 0

/-- What has been read before `opcode_dispatch`. -/
structure Header where
  b0 : Byte
  b1 : Byte
  ext : List Byte
  key : List Byte
  rest : List Byte
deriving DecidableEq, Repr

/-- message_reader.hpp 82-134: `read_frame_header`, `read_extended_length`, `read_masking_key`;
`none` when the stream is too short. -/
def readHeader (s : List Byte) : Option Header :=
  match s with
  | b0 :: b1 :: r =>
    if r.length < extN b1 + maskN b1 then none
    else some ⟨b0, b1, r.take (extN b1), (r.drop (extN b1)).take (maskN b1),
      (r.drop (extN b1)).drop (maskN b1)⟩
  | _ => none

/-- message_reader.hpp 236: `buf_1[0] & 0x0F`. -/
def opcodeOf (b0 : Byte) : Nat := (b0 &&& 0x0F#8).toNat

/-- message_reader.hpp 234-255 `opcode_dispatch`. -/
def dispatch (hw : Bool) (acc : List Byte) (h : Header) : Step :=
  if opcodeOf h.b0 = 0 ∨ opcodeOf h.b0 = 1 ∨ opcodeOf h.b0 = 2 then
    readPayload hw h.b1 h.ext h.key acc h.rest fun p r => .data (highBit h.b0) p r
  else if opcodeOf h.b0 = 8 then
    readPayload hw h.b1 h.ext h.key [] h.rest fun p _ => .close p
  else if opcodeOf h.b0 = 9 then .ping h.rest
  else if opcodeOf h.b0 = 10 then .pong h.rest
  else .badInput

/-- One pass of the reader's pipeline, message_reader.hpp 271-275. -/
def readFrame (hw : Bool) (acc s : List Byte) : Step :=
  match readHeader s with
  | none => .waiting
  | some h => dispatch hw acc h

/-- Notifications passed to the reader's handler (message_reader.hpp 276-291). -/
inductive Event where
  | message (payload : List Byte)
  | ping
  | pong
deriving DecidableEq, Repr

/-- Why the reader is not reading any further. -/
inductive Stop where
  | waiting
  | close (payload : List Byte)
  | badInput
  | ub
deriving DecidableEq, Repr

theorem readHeader_lt {s : List Byte} {h : Header} (e : readHeader s = some h) :
    h.rest.length + 2 ≤ s.length := by
  unfold readHeader at e
  split at e
  · split at e
    · exact absurd e (by simp)
    · injection e with e; rw [← e]; simp
  · exact absurd e (by simp)

/-- Every frame that lets the loop go on consumes at least two bytes. -/
theorem readFrame_rest_lt (hw : Bool) (acc s : List Byte) :
    match readFrame hw acc s with
    | .data _ _ r => r.length < s.length
    | .ping r => r.length < s.length
    | .pong r => r.length < s.length
    | _ => True := by
  unfold readFrame
  cases hh : readHeader s with
  | none => trivial
  | some h =>
    have hl := readHeader_lt hh
    simp only [dispatch]
    by_cases h1 : opcodeOf h.b0 = 0 ∨ opcodeOf h.b0 = 1 ∨ opcodeOf h.b0 = 2
    · rw [if_pos h1]; unfold readPayload
      cases getPayloadLength hw h.b1 h.ext with
      | ub => trivial
      | ok n =>
        simp only
        by_cases hn : h.rest.length < n
        · rw [if_pos hn]; trivial
        · rw [if_neg hn]; simp; omega
    rw [if_neg h1]
    by_cases h2 : opcodeOf h.b0 = 8
    · rw [if_pos h2]; unfold readPayload
      cases getPayloadLength hw h.b1 h.ext with
      | ub => trivial
      | ok n =>
        simp only
        by_cases hn : h.rest.length < n
        · rw [if_pos hn]; trivial
        · rw [if_neg hn]; trivial
    rw [if_neg h2]
    by_cases h3 : opcodeOf h.b0 = 9
    · rw [if_pos h3]; show h.rest.length < s.length; omega
    rw [if_neg h3]
    by_cases h4 : opcodeOf h.b0 = 10
    · rw [if_pos h4]; show h.rest.length < s.length; omega
    rw [if_neg h4]; trivial

/-- message_reader.hpp 267-299 `keep_reading`: the loop over frames.  `acc` is
`frame_ctx.payload`. A FIN data frame delivers the payload and clears it; other events are passed
on; a rejection (close, bad input) ends the loop. -/
def run (hw : Bool) (acc s : List Byte) : List Event × Stop :=
  match h : readFrame hw acc s with
  | .waiting => ([], .waiting)
  | .ub => ([], .ub)
  | .close p => ([], .close p)
  | .badInput => ([], .badInput)
  | .ping r =>
    let (es, st) := run hw acc r
    (.ping :: es, st)
  | .pong r =>
    let (es, st) := run hw acc r
    (.pong :: es, st)
  | .data fin p r =>
    if fin then
      let (es, st) := run hw [] r
      (.message p :: es, st)
    else run hw p r
termination_by s.length
decreasing_by
  all_goals
    have := readFrame_rest_lt hw acc s
    rw [h] at this
    exact this

end Nbdl.Ws
