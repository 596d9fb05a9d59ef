import Verif.Common
import Verif.Sha1.Spec
import Verif.Base64.Spec
/-! What an HTTP upgrade request is (RFC 7230 section 3.2, RFC 6455 section 4.2.2). -/
namespace Nbdl.Handshake.Spec

/-- A header field. -/
structure Field where
  name : List Byte
  value : List Byte
  deriving DecidableEq, Repr

/-- `name:value\r\n` -/
def Field.render (f : Field) : List Byte := f.name ++ ascii ":" ++ f.value ++ ascii "\r\n"

/-- The header section: the fields and an empty line. -/
def render (fs : List Field) : List Byte := fs.flatMap Field.render ++ ascii "\r\n"

/-- An ASCII name without `:`, no line feed anywhere, and the line is at most 256 bytes with its
CRLF. -/
def WF (f : Field) : Prop :=
  (∀ b ∈ f.name, b.toNat < 128 ∧ b ≠ 58#8 ∧ b ≠ 10#8) ∧ (∀ b ∈ f.value, b ≠ 10#8)
    ∧ f.render.length ≤ 256

/-- ASCII lower case. -/
def lower (b : Byte) : Byte := if 65 ≤ b.toNat ∧ b.toNat ≤ 90 then b + 32#8 else b

/-- The value, without leading spaces, of the last field with that (lower-case) name; empty if there
is none. -/
def lookup (name : List Byte) (fs : List Field) : List Byte :=
  match fs.reverse.find? (fun f => f.name.map lower = name) with
  | some f => f.value.dropWhile (· = 32#8)
  | none => []

/-- RFC 6455 section 4.2.2, item 5.4: the accept value for a key. -/
def accept (key : List Byte) : List Byte :=
  Base64.Spec.encode (Sha1.Spec.sha1 (key ++ ascii "258EAFA5-E914-47DA-95CA-C5AB0DC85B11"))

/-- The server's handshake of RFC 6455 section 4.2.2 for a key. -/
def response (key : List Byte) : List Byte :=
  ascii "HTTP/1.1 101 Switching Protocols\r\n"
  ++ ascii "Upgrade: websocket\r\n"
  ++ ascii "Connection: Upgrade\r\n"
  ++ ascii "Sec-WebSocket-Accept: " ++ accept key ++ ascii "\r\n"
  ++ ascii "\r\n"

end Nbdl.Handshake.Spec
