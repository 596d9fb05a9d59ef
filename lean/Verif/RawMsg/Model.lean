import Verif.Common
/-!
# Length-prefixed messages over a TCP stream

Models `/repo/example/pipes/{write_raw_message, read_raw_message, receive_messages_until,
connect}.hpp` and the same framing in `/repo/include/nbdl/ext/asio_tcp.hpp` (lines 60-140).

Simplifications.
* `asio::async_read(socket, buffer(p, n))` completes when `n` bytes arrived, in however many pieces;
  with `n = 0` it completes at once.  `asio::async_write` hands all bytes over.  A socket is a stream
  of bytes; bytes not yet asked for stay in the socket.
* Completion handlers run one at a time (`io_service::run`, example/pipes/main.cpp:159-165).
* Allocation of the body (`body.resize(length)`) succeeds.
-/
namespace Nbdl.RawMsg

/-! ## Writing -/

/-- `length_as_bytes`, write_raw_message.hpp:29-35 (`const uint32_t length = body_.size()`, then the
four bytes from the most significant one down); asio_tcp.hpp:113-116 does the same shifts on the
`size_t` itself. -/
def lengthBytes (size : Nat) : List Byte :=
  let length : BitVec 32 := BitVec.ofNat 32 size
  [(length >>> 24).setWidth 8, (length >>> 16).setWidth 8, (length >>> 8).setWidth 8,
   length.setWidth 8]

/-- `write_raw_message_fn::operator()`, write_raw_message.hpp:26-50; asio_tcp.hpp:108-140 writes the
same bytes in two calls. -/
def write (body : List Byte) : List Byte := lengthBytes body.length ++ body

/-! ## Reading -/

/-- The length, read_raw_message.hpp:40-45, asio_tcp.hpp:72-75.  `unsigned char` is promoted to `int`,
shifted and joined, and the result converted to `uint32_t` (C++20: shifts of `int` wrap). -/
def lengthOf (b0 b1 b2 b3 : Byte) : BitVec 32 :=
  (b0.setWidth 32 <<< 24) ||| (b1.setWidth 32 <<< 16) ||| (b2.setWidth 32 <<< 8) ||| b3.setWidth 32

/-- What is being waited for: the four bytes of a length (read_raw_message.hpp:18-50) or the bytes of
a body (52-81); `got` holds what has arrived. -/
inductive Wait
  | length (got : List Byte)
  | body (length : Nat) (got : List Byte)
  deriving DecidableEq, Repr

/-- `read_body_fn::operator()`, 62-80: a body of length zero is complete at once. -/
def startBody (n : Nat) : Wait × Option (List Byte) :=
  if n = 0 then (.length [], some []) else (.body n [], none)

/-- One byte arrives.  A complete length starts the body; a complete body is passed on (74) and the
next message is waited for. -/
def byte : Wait → Byte → Wait × Option (List Byte)
  | .length [b0, b1, b2], b3 => startBody (lengthOf b0 b1 b2 b3).toNat
  | .length got, b => (.length (got ++ [b]), none)
  | .body n got, b =>
    if (got ++ [b]).length = n then (.length [], some (got ++ [b])) else (.body n (got ++ [b]), none)

/-- A piece of the stream arrives; the messages that are complete, in order. -/
def chunk : Wait → List Byte → Wait × List (List Byte)
  | w, [] => (w, [])
  | w, b :: bs =>
    match byte w b with
    | (w', m) =>
      match chunk w' bs with
      | (w'', ms) => (w'', m.toList ++ ms)

/-- Reading a stream that arrives in pieces. -/
def read : Wait → List (List Byte) → Wait × List (List Byte)
  | w, [] => (w, [])
  | w, c :: cs =>
    match chunk w c with
    | (w', ms) =>
      match read w' cs with
      | (w'', ms') => (w'', ms ++ ms')

/-! ## `receive_messages_until` -/

/-- What the JSON decoder and the variant make of a body: an exception, or a message; the message is
unresolved, the terminating one, or another one (receive_messages_until.hpp:37-52). -/
inductive Kind | unresolved | terminate | other
  deriving DecidableEq, Repr

/-- The application's part. -/
structure App (M : Type) where
  /-- `binder::jsoncpp::from_string`, 37-38; `none`: it throws -/
  parse : List Byte → Option M
  kind : M → Kind
  /-- does `action(x)` throw -/
  throws : M → Bool

/-- What is observed. -/
inductive Obs (M : Type)
  | action (m : M)
  | closed
  | resolved (m : M)
  /-- rejected with an exception -/
  | rejected
  /-- rejected with the error of the socket -/
  | rejectedIo (e : Nat)
  deriving DecidableEq, Repr

/-- Receiving, or finished (resolved or rejected: nothing is read any more). -/
inductive St
  | receiving (w : Wait)
  | finished
  deriving DecidableEq, Repr

/-- The function given to `try_`, receive_messages_until.hpp:34-53, inside `try_` (try.hpp:23-43),
followed by `catch_` (55): does the loop go on, and what was done. -/
def handle {M : Type} (app : App M) (body : List Byte) : Bool × List (Obs M) :=
  match app.parse body with
  | none => (false, [.rejected])
  | some m =>
    match app.kind m with
    | .unresolved => (true, [])
    | .terminate =>
      if app.throws m then (false, [.action m, .rejected])
      else (false, [.action m, .closed, .resolved m])
    | .other => if app.throws m then (false, [.action m, .rejected]) else (true, [.action m])

/-- Inputs of the receiver. -/
inductive In
  | bytes (c : List Byte)
  | error (e : Nat)
  deriving DecidableEq, Repr

/-- One byte arrives at the receiver. -/
def recvByte {M : Type} (app : App M) : St → Byte → St × List (Obs M)
  | .finished, _ => (.finished, [])
  | .receiving w, b =>
    match byte w b with
    | (w', none) => (.receiving w', [])
    | (w', some body) =>
      match handle app body with
      | (true, o) => (.receiving w', o)
      | (false, o) => (.finished, o)

/-- A piece of the stream arrives at the receiver. -/
def recvBytes {M : Type} (app : App M) : St → List Byte → St × List (Obs M)
  | s, [] => (s, [])
  | s, b :: bs =>
    match recvByte app s b with
    | (s', o) =>
      match recvBytes app s' bs with
      | (s'', o') => (s'', o ++ o')

/-- One input: data, or an error (including end of file) of the pending read, which is passed to
`reject` (read_raw_message.hpp:34-37, 75-78, receive_messages_until.hpp:54). -/
def recvStep {M : Type} (app : App M) : St → In → St × List (Obs M)
  | s, .bytes c => recvBytes app s c
  | .receiving _, .error e => (.finished, [.rejectedIo e])
  | .finished, .error _ => (.finished, [])

/-- `receive_messages_until` on all inputs. -/
def recv {M : Type} (app : App M) : St → List In → St × List (Obs M)
  | s, [] => (s, [])
  | s, i :: is =>
    match recvStep app s i with
    | (s', o) =>
      match recv app s' is with
      | (s'', o') => (s'', o ++ o')

/-! ## `connect` -/

/-- How `connect` ends. -/
inductive Conn
  | connected (calls : Nat)
  | rejected (calls : Nat)
  /-- still trying -/
  | pending (calls : Nat)
  deriving DecidableEq, Repr

/-- `connect_fn::operator()`, connect.hpp:43-63.  `failed` is `attempts_failed`, `calls` counts the
calls of `async_connect` so far, `results` says which of them succeed. -/
def connect (attempts : Int) (failed : Nat) (calls : Nat) : List Bool → Conn
  | [] => .pending (calls + 1)
  | true :: _ => .connected (calls + 1)
  | false :: rest =>
    if (failed : Int) ≥ attempts then .rejected (calls + 1)
    else connect attempts (failed + 1) (calls + 1) rest

end Nbdl.RawMsg
