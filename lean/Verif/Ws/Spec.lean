import Verif.Ws.Model
/-!
Independent specification of websocket frames (RFC 6455 sections 5.2 to 5.5) and of what a
receiver should report for a sequence of frames.
-/
namespace Nbdl.Ws.Spec

/-- A websocket frame. -/
structure Frame where
  fin : Bool
  opcode : Nat
  mask : Option (Byte × Byte × Byte × Byte)
  payload : List Byte
deriving DecidableEq, Repr

/-- The four bytes of a masking key. -/
def keyBytes (k : Byte × Byte × Byte × Byte) : List Byte := [k.1, k.2.1, k.2.2.1, k.2.2.2]

/-- RFC 6455 5.3: octet `i` is xored with octet `i mod 4` of the key. -/
def applyMask (k : Byte × Byte × Byte × Byte) (p : List Byte) : List Byte :=
  p.mapIdx fun i b => b ^^^ (keyBytes k).getD (i % 4) 0

/-- RFC 6455 5.2: the 7-bit length code and the extended length, big endian, minimal form. -/
def lengthField (n : Nat) : Nat × List Byte :=
  if n < 126 then (n, [])
  else if n < 2 ^ 16 then (126, [BitVec.ofNat 8 (n / 256), BitVec.ofNat 8 (n % 256)])
  else (127, (List.range 8).map fun i => BitVec.ofNat 8 (n / 256 ^ (7 - i) % 256))

/-- RFC 6455 5.2: the octets of a frame. -/
def encodeFrame (f : Frame) : List Byte :=
  let (code, ext) := lengthField f.payload.length
  match f.mask with
  | none =>
    BitVec.ofNat 8 (f.fin.toNat * 128 + f.opcode) :: BitVec.ofNat 8 code :: (ext ++ f.payload)
  | some k =>
    BitVec.ofNat 8 (f.fin.toNat * 128 + f.opcode) :: BitVec.ofNat 8 (128 + code)
      :: (ext ++ keyBytes k ++ applyMask k f.payload)

/-- What a receiver should report for a sequence of complete frames, `acc` being the fragments
received so far: a message is the concatenation of its fragments; control frames are reported
without disturbing the fragments; a close frame or an unknown opcode ends the connection. -/
def receive (acc : List Byte) : List Frame → List Event × Stop
  | [] => ([], .waiting)
  | f :: fs =>
    if f.opcode ≤ 2 then
      if f.fin then
        let r := receive [] fs
        (.message (acc ++ f.payload) :: r.1, r.2)
      else receive (acc ++ f.payload) fs
    else if f.opcode = 8 then ([], .close f.payload)
    else if f.opcode = 9 then
      let r := receive acc fs
      (.ping :: r.1, r.2)
    else if f.opcode = 10 then
      let r := receive acc fs
      (.pong :: r.1, r.2)
    else ([], .badInput)

/-- Is every masked data frame the first one of its message? (`started`: a message is unfinished) -/
def contUnmasked (started : Bool) : List Frame → Prop
  | [] => True
  | f :: fs =>
    if f.opcode ≤ 2 then (started = true → f.mask = none) ∧ contUnmasked (!f.fin) fs
    else contUnmasked started fs

end Nbdl.Ws.Spec
