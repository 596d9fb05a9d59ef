import Verif.Base64.Model
import Verif.Cookies.Model
import Verif.Handshake.Model
import Verif.Ws.Model
/-!
# The model against the project's own tests: encodings, cookies, the handshake, frames

The checks of the test suite in `/repo/test`, made of the model.  They are tests and not proofs: what they show is
that the model gives what the authors of the code expect of it.  A `std::string` holds signed characters.
-/
namespace Nbdl.Tests

open Nbdl

/-! ## test/nbdl/util/base64.cpp -/

/-- base64.cpp:19-22 -/
def arbitraryDecoded : List Byte :=
  [184, 167, 248, 113,  56,  19, 246,  74, 101,  62, 122, 117,  43, 127, 151, 152]

/-- base64.cpp:23 -/
def arbitraryEncoded : List Byte := ascii "uKf4cTgT9kplPnp1K3+XmA=="

/-- base64.cpp:47-62 -/
example : Base64.encode true (ascii "pleasure.") = .ok (ascii "cGxlYXN1cmUu")
  ∧ Base64.encode true (ascii "leasure.") = .ok (ascii "bGVhc3VyZS4=")
  ∧ Base64.encode true (ascii "easure.") = .ok (ascii "ZWFzdXJlLg==")
  ∧ Base64.encode true (ascii "asure.") = .ok (ascii "YXN1cmUu")
  ∧ Base64.encode true (ascii "sure.") = .ok (ascii "c3VyZS4=")
  ∧ Base64.encode false [255, 35, 254] = .ok (ascii "/yP+")
  ∧ Base64.encode false [255, 35, 254, 123] = .ok (ascii "/yP+ew==")
  ∧ Base64.encode true [] = .ok []
  ∧ Base64.encode false arbitraryDecoded = .ok arbitraryEncoded := by decide +kernel

/-- base64.cpp:69-87 -/
example : Base64.decode1 (ascii "cGxlYXN1cmUu") = .ok (ascii "pleasure.")
  ∧ Base64.decode1 (ascii "bGVhc3VyZS4=") = .ok (ascii "leasure.")
  ∧ Base64.decode1 (ascii "ZWFzdXJlLg==") = .ok (ascii "easure.")
  ∧ Base64.decode1 (ascii "YXN1cmUu") = .ok (ascii "asure.")
  ∧ Base64.decode1 (ascii "c3VyZS4=") = .ok (ascii "sure.")
  ∧ Base64.decode1 [] = .ok []
  ∧ Base64.decode1 (ascii "c3VyZS4$") = .ok []
  ∧ Base64.decode1 (ascii "^c3VyZS4") = .ok []
  ∧ Base64.decode1 (ascii "c3#VyZS4") = .ok []
  ∧ Base64.decode1 (ascii "c3VyZS4") = .ok []
  ∧ Base64.decode1 (ascii "/yP+") = .ok [255, 35, 254]
  ∧ Base64.decode1 (ascii "/yP+ew==") = .ok [255, 35, 254, 123]
  ∧ Base64.decode1 arbitraryEncoded = .ok arbitraryDecoded := by decide +kernel

/-- The flag returned by the decoder with two arguments. -/
def accepted : Cpp (Bool × List Byte) → Bool
  | .ok (b, _) => b
  | .ub => false

/-- base64.cpp:95-132; the containers of fixed size hold zeros before. -/
example : Base64.decode2 true (ascii "ZWFzdXJlLg==") [] = .ok (true, ascii "easure.")
  ∧ Base64.decode2 false (ascii "YXN1cmUu") (List.replicate 6 0) = .ok (true, ascii "asure.")
  ∧ accepted (Base64.decode2 false (ascii "YXN1cmUu") (List.replicate 5 0)) = false
  ∧ accepted (Base64.decode2 false (ascii "YXN1cmUu") (List.replicate 7 0)) = false
  ∧ Base64.decode2 true (ascii "YXN1cmUu") [] = .ok (true, ascii "asure.")
  ∧ Base64.decode2 true [] [] = .ok (true, [])
  ∧ Base64.decode2 false [] [] = .ok (true, [])
  ∧ accepted (Base64.decode2 true (ascii "^c3VyZS4") []) = false := by decide +kernel

/-! ## test/nbdl/websocket/detail/get_auth_token.cpp -/

/-- get_auth_token.cpp:15-61.  The texts are `std::string`s, whose end may be read (it is a NUL). -/
example : Cookies.getAuthToken true (ascii "nbdl_auth=Foo") = .ok (ascii "Foo")
  ∧ Cookies.getAuthToken true (ascii "nbdl_auth=") = .ok []
  ∧ Cookies.getAuthToken true (ascii "asdfasdfad") = .ok []
  ∧ Cookies.getAuthToken true (ascii "foo=asdfasdfad; nbdl_auth=Foo") = .ok (ascii "Foo")
  ∧ Cookies.getAuthToken true (ascii "foo=asdfasdfad; nbdl_authz=Foo") = .ok []
  ∧ Cookies.getAuthToken true (ascii "foo=asdfasdfad; asdfasfe=asdd; nbdl_auth=Foo") = .ok (ascii "Foo")
  ∧ Cookies.getAuthToken true (ascii "foo=asdfasdfad; asdfasdfasdf; nbdl_auth=Foo") = .ok (ascii "Foo")
  ∧ Cookies.getAuthToken true (ascii "foo=asdfasdfad;asdfasdfasdf nbdl_auth=Foo") = .ok []
  ∧ Cookies.getAuthToken true (ascii "nbdl-auth:Foo;") = .ok []
  ∧ Cookies.getAuthToken true (ascii "nbdl=auth=Foo;") = .ok []
  ∧ Cookies.getAuthToken true (ascii "nbdl_auth=Foo;") = .ok (ascii "Foo") := by decide +kernel

/-! ## test/nbdl/app/detail/cookie_parser.cpp -/

/-- cookie_parser.cpp:14-28 -/
example : Cookies.getSessionCookie (ascii "NBDL_SESS=foobar42") = ascii "foobar42"
  ∧ Cookies.getSessionCookie (ascii "NBDL_SESS=foobar42;") = ascii "foobar42"
  ∧ Cookies.getSessionCookie (ascii "NBDL_SESS=foobar42; ") = ascii "foobar42"
  ∧ Cookies.getSessionCookie (ascii "NBDL_SESS=foobar42; moo=cow") = ascii "foobar42"
  ∧ Cookies.getSessionCookie (ascii "blah=blah; NBDL_SESS=foobar42; moo=cow") = ascii "foobar42"
  ∧ Cookies.getSessionCookie (ascii "blah=blah;NBDL_SESS=foobar42; moo=cow") = ascii "foobar42"
  ∧ Cookies.getSessionCookie (ascii "NBDL_SESS=asdfasdfasdfasdfasdfadf1234")
      = ascii "asdfasdfasdfasdfasdfadf1234" := by decide +kernel

/-- cookie_parser.cpp:31-47 -/
example : Cookies.getSessionCookie [] = []
  ∧ Cookies.getSessionCookie (ascii " ;") = []
  ∧ Cookies.getSessionCookie (ascii "; ") = []
  ∧ Cookies.getSessionCookie (ascii " ; ") = []
  ∧ Cookies.getSessionCookie (ascii "asdfjadfaksdjfasdf ") = []
  ∧ Cookies.getSessionCookie (ascii "asdfjadfaksdjfasdf;") = []
  ∧ Cookies.getSessionCookie (ascii "NBDL_SESS;") = []
  ∧ Cookies.getSessionCookie (ascii "blah=NBDL_SESS=moo;") = [] := by decide +kernel

/-! ## test/nbdl/websocket/detail/parse_handshake_request.cpp, send_handshake_response.cpp -/

/-- parse_handshake_request.cpp:58-76 without the request line -/
def requestHeaders : List Byte :=
  ascii "Host: example.com:8000\r\nOrigin: http://myorigin.com\r\nUpgrade: websocket\r\nConnection: Upgrade\r\nSec-WebSocket-Key: dGhlIHNhbXBsZSBub25jZQ==\r\nSec-WebSocket-Version: 13\r\nCookies: nbdl-auth:adslkjfasdf; blah=asdfasd;\r\n\r\n"

/-- What the headers say. -/
def headerInfo : Handshake.Headers → Option Handshake.Info
  | .done i _ _ => some i
  | _ => none

/-- parse_handshake_request.cpp:54-83, with everything arriving at once and octet by octet. -/
example : Handshake.expectEqual Handshake.requestLine (ascii "GET / HTTP/1.1\r\n" ++ requestHeaders) = .equal requestHeaders
  ∧ headerInfo (Handshake.readHeaders (fun _ => 1000) {} 0 [] requestHeaders)
      = some ⟨ascii "dGhlIHNhbXBsZSBub25jZQ==", ascii "nbdl-auth:adslkjfasdf; blah=asdfasd;"⟩
  ∧ headerInfo (Handshake.readHeaders (fun _ => 1) {} 0 [] requestHeaders)
      = some ⟨ascii "dGhlIHNhbXBsZSBub25jZQ==", ascii "nbdl-auth:adslkjfasdf; blah=asdfasd;"⟩ := by decide +kernel

/-- send_handshake_response.cpp:54-76 -/
example : (Handshake.acceptToken (ascii "dGhlIHNhbXBsZSBub25jZQ==")).map
      (fun t => Handshake.responseStart ++ t ++ Handshake.responseEnd)
    = .ok (ascii "HTTP/1.1 101 Switching Protocols\r\nUpgrade: websocket\r\nConnection: Upgrade\r\nSec-WebSocket-Accept: s3pPLMBiTxaQ9kYGzzhZRbK+xOo=\r\n\r\n") := by
  decide +kernel

/-! ## test/nbdl/websocket/detail/message.cpp -/

/-- message.cpp:127-148: what is sent -/
def sentFrames : List Byte :=
  Ws.sendMessage Ws.maxFrameSize (by decide) Ws.opText (ascii "Hello, world!")
  ++ Ws.sendMessage Ws.maxFrameSize (by decide) Ws.opText (ascii "Hello, world, again!")
  ++ Ws.sendFrame 0x1 (ascii "Hello, ")
  ++ Ws.sendMessage Ws.maxFrameSize (by decide) 0x9 []
  ++ Ws.sendFrame 0x80 (ascii "ping!")
  ++ Ws.sendMessage Ws.maxFrameSize (by decide) Ws.opClose []

/-- message.cpp:150-161 -/
example : Ws.run true [] sentFrames
    = ([.message (ascii "Hello, world!"), .message (ascii "Hello, world, again!"), .ping,
        .message (ascii "Hello, ping!")], .close []) := by decide +kernel

/-- message.cpp:164-175 -/
example : Ws.run true [] (Ws.sendFrame 100 (ascii "Bad opcode!")) = ([], .badInput) := by decide +kernel

end Nbdl.Tests
