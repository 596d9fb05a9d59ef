import Verif.Base64.Model
import Verif.Sha1.Model
import Verif.Cookies.Model
/-!
# The websocket opening handshake

Models `/repo/include/nbdl/websocket/detail/{expect_equal, parse_handshake_request,
send_handshake_request, send_handshake_response, parse_handshake_response}.hpp` and the promise
chains of `/repo/include/nbdl/websocket/{server_endpoint, client_endpoint}.hpp`.

A socket is the list of bytes the peer has sent and that have not been read yet.  `read_some` may
return any non-zero number of the available bytes; how many is decided by a schedule
`Nat → Nat`, indexed by the number of reads made so far.
-/
namespace Nbdl.Handshake

def cr : Byte := 13#8
def lf : Byte := 10#8
def colon : Byte := 58#8
def space : Byte := 32#8
def crlf : List Byte := [cr, lf]

/-! ## `expect_equal` -/

/-- Outcome of `expect_equal`, expect_equal.hpp:23-47: `async_read` of exactly `str.size()` bytes,
then a comparison.  Simplification: `async_read` gathers its bytes in one step; if the peer has not
sent enough bytes the operation is still pending. -/
inductive Expect where
  /-- resolved; the rest of the stream is left in the socket (38) -/
  | equal (rest : List Byte)
  /-- `reject(event::bad_request)` (43) -/
  | badRequest
  | waiting
  deriving DecidableEq, Repr

def expectEqual (str stream : List Byte) : Expect :=
  if stream.length < str.length then .waiting
  else if stream.take str.length = str then .equal (stream.drop str.length)
  else .badRequest

/-! ## Reading headers -/

/-- `handshake_info_t`, parse_handshake_request.hpp:27-31 -/
structure Info where
  websocketKey : List Byte := []
  cookies : List Byte := []
  deriving DecidableEq, Repr

/-- `std::tolower` in the "C" locale.  Passing it a `char` with a negative value, as
parse_handshake_request.hpp:39 does for bytes from 0x80 on, is undefined. -/
def toLower (b : Byte) : Cpp Byte :=
  if 128 ≤ b.toNat then .ub
  else if 65 ≤ b.toNat ∧ b.toNat ≤ 90 then .ok (b + 32#8) else .ok b

/-- `std::transform(…, tolower)`, parse_handshake_request.hpp:39 -/
def lowerAll : List Byte → Cpp (List Byte)
  | [] => .ok []
  | b :: r => (toLower b).bind fun c => (lowerAll r).map (c :: ·)

/-- `std::find_if(std::next(token_pos), end, c != ' ')`, parse_handshake_request.hpp:45,52; `rest`
is the suffix at `token_pos`.  When there is no ':' `std::next` moves past the end: undefined. -/
def fieldValue (rest : List Byte) : Cpp (List Byte) :=
  match rest with
  | [] => .ub
  | _ :: r => .ok (r.dropWhile (· == space))

/-- `parse_header`, parse_handshake_request.hpp:33-57 -/
def parseHeader (info : Info) (header : List Byte) : Cpp Info :=
  (lowerAll (header.takeWhile (· != colon))).bind fun n =>
    if n = ascii "sec-websocket-key" then
      (fieldValue (header.dropWhile (· != colon))).map fun v => { info with websocketKey := v }
    else if n = ascii "cookies" then
      (fieldValue (header.dropWhile (· != colon))).map fun v => { info with cookies := v }
    else .ok info

/-- Index of the first `"\r\n"`. -/
def findCrlf : List Byte → Option Nat
  | [] => none
  | [_] => none
  | a :: b :: r => if a = cr ∧ b = lf then some 0 else (findCrlf (b :: r)).map (· + 1)

/-- Outcome of `asio::async_read_until`: the line (without its CRLF), what stays in the dynamic
buffer behind it, the number of reads made so far and what stays in the socket. -/
inductive Line where
  | line (l buf : List Byte) (i : Nat) (stream : List Byte)
  /-- `error::not_found`: the buffer is at its maximum size and has no CRLF -/
  | notFound
  /-- more input is needed than the peer has sent -/
  | waiting
  deriving DecidableEq, Repr

/-- The maximum size of the dynamic buffer, parse_handshake_request.hpp:71 -/
def maxBuf : Nat := 256

/-- How many bytes the `i`-th read delivers: at least one, at most what fits and what is there. -/
def chunk (sched : Nat → Nat) (i buf stream : Nat) : Nat :=
  max 1 (min (sched i) (min (maxBuf - buf) stream))

/-- `async_read_until(socket, dynamic_buffer(buffer, 256), "\r\n")`,
parse_handshake_request.hpp:69-74: look for the delimiter in what is buffered, otherwise read some
more unless the buffer is full. -/
def readLine (sched : Nat → Nat) (i : Nat) (buf stream : List Byte) : Line :=
  match findCrlf buf with
  | some k => .line (buf.take k) (buf.drop (k + 2)) i stream
  | none =>
    if maxBuf ≤ buf.length then .notFound
    else if _h : stream = [] then .waiting
    else
      let n := chunk sched i buf.length stream.length
      readLine sched (i + 1) (buf ++ stream.take n) (stream.drop n)
termination_by stream.length
decreasing_by
  have h1 : 1 ≤ chunk sched i buf.length stream.length := by unfold chunk; omega
  have h2 := List.length_pos_iff.2 _h
  rw [List.length_drop]; omega

/-- Outcome of `read_headers`. -/
inductive Headers where
  /-- resolved with the info (90); `buf` is what was read beyond the headers, `stream` what is left
  in the socket -/
  | done (info : Info) (buf stream : List Byte)
  | notFound
  | waiting
  | ub
  deriving DecidableEq, Repr

theorem findCrlf_lt (l : List Byte) (k : Nat) (h : findCrlf l = some k) : k + 2 ≤ l.length := by
  induction l generalizing k with
  | nil => simp [findCrlf] at h
  | cons a l ih =>
    cases l with
    | nil => simp [findCrlf] at h
    | cons b l =>
      rw [findCrlf] at h
      split at h
      · simp at h; subst h; simp
      · cases e : findCrlf (b :: l) with
        | none => rw [e] at h; simp at h
        | some j =>
          rw [e] at h; simp at h; subst h
          have := ih j e
          simp only [List.length_cons] at *; omega

theorem readLine_length (sched : Nat → Nat) (i : Nat) (buf stream l b : List Byte) (j : Nat)
    (s : List Byte) (h : readLine sched i buf stream = .line l b j s) :
    b.length + s.length + l.length + 2 = buf.length + stream.length := by
  induction hn : stream.length using Nat.strongRecOn generalizing i buf stream with
  | ind n ih =>
    rw [readLine] at h
    split at h
    · rename_i k hk
      have := findCrlf_lt _ _ hk
      simp only [Line.line.injEq] at h
      obtain ⟨rfl, rfl, -, rfl⟩ := h
      simp only [List.length_take, List.length_drop]; omega
    · split at h
      · simp at h
      · split at h
        · simp at h
        · rename_i hs
          have h1 : 1 ≤ chunk sched i buf.length stream.length := by unfold chunk; omega
          have h2 := List.length_pos_iff.2 hs
          have := ih _ (by rw [List.length_drop]; omega) _ _ _ h rfl
          simp only [List.length_append, List.length_take, List.length_drop] at this
          omega

/-- `read_headers::operator()`, parse_handshake_request.hpp:59-96: a line of at most two characters
(that is, an empty one) ends the headers. -/
def readHeaders (sched : Nat → Nat) (info : Info) (i : Nat) (buf stream : List Byte) : Headers :=
  match h : readLine sched i buf stream with
  | .notFound => .notFound
  | .waiting => .waiting
  | .line l buf' j stream' =>
    if l = [] then .done info (crlf ++ buf') stream'
    else
      match parseHeader info l with
      | .ub => .ub
      | .ok info' => readHeaders sched info' j buf' stream'
termination_by buf.length + stream.length
decreasing_by
  have := readLine_length _ _ _ _ _ _ _ _ h
  omega

/-! ## Server -/

/-- parse_handshake_request.hpp:101 -/
def requestLine : List Byte := ascii "GET / HTTP/1.1\r\n"

def guid : List Byte := ascii "258EAFA5-E914-47DA-95CA-C5AB0DC85B11"

/-- `generate_accept_token`, send_handshake_response.hpp:27-42 -/
def acceptToken (key : List Byte) : Cpp (List Byte) :=
  Base64.encode false (Sha1.finish (Sha1.update (Sha1.update Sha1.init key) guid))

/-- send_handshake_response.hpp:75-83 -/
def responseStart : List Byte :=
  ascii "HTTP/1.1 101 Switching Protocols\r\nUpgrade: websocket\r\nConnection: Upgrade\r\nSec-WebSocket-Accept: "

/-- send_handshake_response.hpp:84 -/
def responseEnd : List Byte := ascii "\r\n\r\n"

/-- What the server does with the bytes it receives. -/
inductive Server where
  /-- the response is sent and the ready event delivers the auth token; `unread` is what is left in
  the socket -/
  | ready (token response unread : List Byte)
  /-- the bad_request event, server_endpoint.hpp:44-47 -/
  | badRequest
  /-- another error event, server_endpoint.hpp:48-51 -/
  | error
  | waiting
  | ub
  deriving DecidableEq, Repr

/-- `server_endpoint_init`, server_endpoint.hpp:34-55.  Simplification: the write of the response
succeeds (its failure is an error event). -/
def server (nul : Bool) (sched : Nat → Nat) (stream : List Byte) : Server :=
  match expectEqual requestLine stream with
  | .waiting => .waiting
  | .badRequest => .badRequest
  | .equal rest =>
    match readHeaders sched {} 0 [] rest with
    | .waiting => .waiting
    | .notFound => .error
    | .ub => .ub
    | .done info _ unread =>
      match acceptToken info.websocketKey with
      | .ub => .ub
      | .ok accept =>
        match Cookies.getAuthToken nul info.cookies with
        | .ub => .ub
        | .ok token => .ready token (responseStart ++ accept ++ responseEnd) unread

/-! ## Client -/

/-- `send_handshake_request_fn`, send_handshake_request.hpp:30-73 -/
def request (origin token : List Byte) : List Byte :=
  ascii "GET / HTTP/1.1\r\nHost: nbdl\r\nOrigin:"
  ++ origin
  ++ ascii "\r\nUpgrade: websocket\r\nConnection: Upgrade\r\nSec-WebSocket-Key: dGhlIHNhbXBsZSBub25jZQ==\r\nSec-WebSocket-Version: 13\r\nCookies: nbdl_auth="
  ++ token
  ++ ascii ";\r\n\r\n"

/-- parse_handshake_response.hpp:22-32 -/
def expectedResponse : List Byte :=
  ascii "HTTP/1.1 101 Switching Protocols\r\nUpgrade: websocket\r\nConnection: Upgrade\r\nSec-WebSocket-Accept: s3pPLMBiTxaQ9kYGzzhZRbK+xOo=\r\n\r\n"

/-- `parse_handshake_response`, parse_handshake_response.hpp:18-34: the client becomes ready if this
is `.equal`. -/
def client (stream : List Byte) : Expect := expectEqual expectedResponse stream

end Nbdl.Handshake
