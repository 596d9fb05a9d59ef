import Verif.Common
/-!
# The servers' connections

Models the accept loop of `/repo/include/nbdl/app/server.hpp` (lines 64, 98–100, 134–174) with
`/repo/include/nbdl/ext/beast_ws.hpp` (lines 35–97); the list of connections of server.hpp (lines
113–131, 176–182) with `/repo/include/nbdl/app/server_connection.hpp` (lines 39–49, 73–79); and the
server for JavaScript, `/repo/include/nbdl/app/server_js.hpp` (lines 28–138).
-/
namespace Nbdl.Server

/-! ## The accept loop

Simplifications.
* `boost::beast` is not part of `/repo`.  Its HTTP parser is a parameter (`parse`), and so is whether
  `async_accept` takes a request for one of a websocket (`upgrade`); that answer is sent at once.
* `http::async_read` parses what is in its buffer first, then reads more, as much as has arrived,
  until the message is complete; what follows the message stays in the buffer, and so does what
  follows the place of an error.  Its documentation demands a message without previous contents.
* The promises of the loop are made once (server.hpp:146-173), so `parse_request_fn::buffer`
  (beast_ws.hpp:46) is the same for every connection, as `server_impl::request_` (server.hpp:64) is.
* Connections are numbered; the operating system accepts them in the order they come. -/

/-- What the parser says of some bytes. -/
inductive Parsed (R : Type)
  | more
  | done (r : R) (rest : List Byte)
  | bad (rest : List Byte)
  deriving DecidableEq, Repr

/-- What happens at the network. -/
inductive Ev
  | connect (c : Nat) | data (c : Nat) (bs : List Byte) | hangup (c : Nat)
  deriving DecidableEq, Repr

/-- The loop's state: `request_`, the buffer, the connection whose request is being read, those
which wait to be accepted, what they have sent (and whether they hung up), and the connections
opened (server.hpp:151-156) with their requests. -/
structure A (R : Type) where
  request : Option R
  buffer : List Byte
  reading : Option Nat
  backlog : List Nat
  inbox : Nat → List Byte
  hung : Nat → Bool
  served : List (Nat × R)

/-- The start. -/
def accept0 {R} : A R := ⟨none, [], none, [], fun _ => [], fun _ => false, []⟩

/-- `parse_request_fn`, beast_ws.hpp:48-55, with `ws_accept`, 65-73, and the promise of
server.hpp:149-164, when `bs` more bytes have come.  After an error (server.hpp:165-172) or an
answer the loop goes on (`reading` is empty). -/
def parseMore {R} (parse : List Byte → Parsed R) (upgrade : R → Bool) (c : Nat) (bs : List Byte)
    (a : A R) : Cpp (A R) :=
  match parse (a.buffer ++ bs) with
  | .more =>
    if a.hung c then .ok { a with buffer := a.buffer ++ bs, reading := none }
    else .ok { a with buffer := a.buffer ++ bs, reading := some c }
  | .bad rest => .ok { a with buffer := rest, reading := none }
  | .done r rest =>
    match a.request with
    | some _ => .ub
    | none =>
      .ok { a with
        request := some r, buffer := rest, reading := none
        served := if upgrade r then a.served ++ [(c, r)] else a.served }

/-- `tcp_accept`, beast_ws.hpp:35-43, as often as the loop comes back to it. -/
def acceptAll {R} (parse : List Byte → Parsed R) (upgrade : R → Bool) :
    List Nat → A R → Cpp (A R)
  | [], a => .ok { a with backlog := [] }
  | c :: cs, a =>
    match a.reading with
    | some _ => .ok { a with backlog := c :: cs }
    | none => (parseMore parse upgrade c (a.inbox c) a).bind (acceptAll parse upgrade cs)

/-- One event of the network, and what the loop does then. -/
def acceptStep {R} (parse : List Byte → Parsed R) (upgrade : R → Bool) (a : A R) : Ev → Cpp (A R)
  | .connect c => acceptAll parse upgrade (a.backlog ++ [c]) a
  | .data c bs =>
    if a.reading = some c then
      (parseMore parse upgrade c bs a).bind fun a => acceptAll parse upgrade a.backlog a
    else .ok { a with inbox := fun i => if i = c then a.inbox c ++ bs else a.inbox i }
  | .hangup c =>
    if a.reading = some c then acceptAll parse upgrade a.backlog { a with reading := none }
    else .ok { a with hung := fun i => if i = c then true else a.hung i }

/-- A history of the network. -/
def acceptRun {R} (parse : List Byte → Parsed R) (upgrade : R → Bool) :
    List Ev → A R → Cpp (A R)
  | [], a => .ok a
  | e :: es, a => (acceptStep parse upgrade a e).bind (acceptRun parse upgrade es)

/-! ## The list of connections, server.hpp

Simplifications.  A connection is its address.  What `send_message` of an endpoint does is
`full_duplex`'s: `ends c` says whether it ends the endpoint at once (then `event::terminate` calls
`unregister_connection` before it returns). -/

/-- What is done to the list: `register_connection` (server.hpp:113-116), `unregister_connection`
(118-125), `send_message` (176-182). -/
inductive Op (M : Type)
  | register (c : Nat) | unregister (c : Nat) | send (m : M)

/-- `connections`, and what was given to the endpoints. -/
structure C (M : Type) where
  connections : List Nat
  sent : List (Nat × M)

/-- `send_message`, lines 176-182: a loop over the vector; erasing an element meanwhile
(line 123) invalidates the loop's iterators. -/
def sendAll {M} (ends : Nat → Bool) (m : M) : List Nat → C M → Cpp (C M)
  | [], s => .ok s
  | c :: cs, s =>
    if ends c then .ub else sendAll ends m cs { s with sent := s.sent ++ [(c, m)] }

/-- One call. -/
def connStep {M} (ends : Nat → Bool) (s : C M) : Op M → Cpp (C M)
  | .register c => .ok { s with connections := s.connections ++ [c] }
  | .unregister c => .ok { s with connections := s.connections.erase c }
  | .send m => sendAll ends m s.connections s

/-- A history. -/
def connRun {M} (ends : Nat → Bool) : List (Op M) → C M → Cpp (C M)
  | [], s => .ok s
  | o :: os, s => (connStep ends s o).bind (connRun ends os)

/-! ## The server for JavaScript, server_js.hpp

Simplifications.  A connection is a number (two connections are different objects).  `read` is
`JSON.parse` with the deserializer (`none`: `JSON.parse` throws; `some none`: deserialization
fails).  The package is `ws` 3 (tool/dom_test/package.json:13): `send` throws if the connection is
not open; an exception which leaves a listener ends the process.  Serializing is left out. -/

/-- What happens: a client connects (line 62), sends (64), closes its connection, or the context
sends a message downstream (line 77). -/
inductive JsEv (D M : Type)
  | connect (c : Nat) | message (c : Nat) (d : D) | clientClose (c : Nat) | send (m : M)

/-- `connections`, which connections are open, what was sent to them, what the context was given;
`running`: the process has not been ended by an exception. -/
structure J (X M : Type) where
  connections : List Nat
  opened : Nat → Bool
  sent : List (Nat × M)
  received : List (Nat × X)
  running : Bool

/-- The start. -/
def js0 {X M} : J X M := ⟨[], fun _ => false, [], [], true⟩

/-- `send_message`, lines 76-90; an exception leaves the loop and goes to the caller. -/
def jsSend {X M} (m : M) : List Nat → J X M → J X M
  | [], s => s
  | c :: cs, s => if s.opened c then jsSend m cs { s with sent := s.sent ++ [(c, m)] } else s

/-- One event; `drop_connection` is lines 118-137, `receive_message` 92-116. -/
def jsStep {D X M} (read : D → Option (Option X)) (s : J X M) (e : JsEv D M) : J X M :=
  if s.running then
    match e with
    | .connect c =>
      { s with connections := s.connections ++ [c],
               opened := fun i => if i = c then true else s.opened i }
    | .message c d =>
      match read d with
      | none => { s with running := false }
      | some none =>
        { s with connections := s.connections.filter fun i => i ≠ c,
                 opened := fun i => if i = c then false else s.opened i }
      | some (some x) => { s with received := s.received ++ [(c, x)] }
    | .clientClose c => { s with opened := fun i => if i = c then false else s.opened i }
    | .send m => jsSend m s.connections s
  else s

/-- A history. -/
def jsRun {D X M} (read : D → Option (Option X)) : List (JsEv D M) → J X M → J X M
  | [], s => s
  | e :: es, s => jsRun read es (jsStep read s e)

end Nbdl.Server
