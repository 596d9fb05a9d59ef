import Verif.Handshake.Model
import Verif.Link.Model

/-!
# A client and a server from the first octet on

Puts together the opening handshake (`Handshake`) and the messaging phase (`Link`) of the endpoints of
`/repo/include/nbdl/websocket/client_endpoint.hpp` (26-69) and
`/repo/include/nbdl/websocket/server_endpoint.hpp` (34-80). Both endpoints exist, and their users may
call them, from the beginning: `endpoint_open` returns the endpoint right away, and
`endpoint_impl`'s constructor (`detail/endpoint_impl.hpp` 92-110) only starts the handshake.

Simplifications.
* The writes of the request and of the response succeed; how much of them arrives, and when, is left
  open.
* `start_messaging` is called by a user who was told that the endpoint is ready (as in
  `/repo/test/nbdl/websocket/endpoint.cpp` 132 and 173); before that the call is left out.
* Those of `Handshake` and `Link`.
-/

namespace Nbdl.Session
open Nbdl.Link (Side Act Net reports)
open Nbdl.Handshake (Server Expect server client request)

/-- The endpoints, whether the cookies end in a NUL (`Handshake`), how many octets each read of
the server takes, and what the client is told to introduce itself with. -/
structure Conf where
  link : Link.Conf
  nul : Bool
  sched : Nat → Nat
  origin : List Byte
  token : List Byte

/-- What a user's handler is told by the handshake, in order, with the calls of `stop` in between. -/
inductive Told
  /-- `endpoint_event::ready`, for a server with the token: client_endpoint.hpp:57,
  server_endpoint.hpp:42 -/
  | ready (token : List Byte)
  /-- `event::bad_request`, client_endpoint.hpp:61 and server_endpoint.hpp:46 -/
  | badRequest
  /-- another error, client_endpoint.hpp:61 and server_endpoint.hpp:50 -/
  | error
  /-- undefined behaviour -/
  | ub
  /-- the user called `stop` -/
  | stopped
  deriving DecidableEq, Repr

/-- One of the two: the octets that arrived during the handshake, whether the handshake was ended by an
error of the connection, what the user was told, and the endpoint. -/
structure Peer where
  got : List Byte := []
  failed : Bool := false
  told : List Told := []
  side : Side := {}

structure St where
  client : Peer := {}
  server : Peer := {}

/-- Where the handshake is at the server, server_endpoint.hpp:34-55 -/
def serverAt (k : Conf) (st : St) : Server := server k.nul k.sched st.server.got

/-- Where the handshake is at the client, client_endpoint.hpp:50-63 -/
def clientAt (st : St) : Expect := client st.client.got

/-- All octets the client wrote so far: send_handshake_request.hpp:30-73, then those of the endpoint. -/
def clientStream (k : Conf) (st : St) : List Byte :=
  request k.origin k.token ++ st.client.side.out k.link

/-- All octets the server wrote so far: send_handshake_response.hpp:44-87, then those of the
endpoint. -/
def serverStream (k : Conf) (st : St) : List Byte :=
  match serverAt k st with
  | .ready _ response _ => response ++ st.server.side.out k.link
  | _ => []

/-- The octets for the reader of the server: those the handshake left in the socket and those which
come after them. -/
def serverRest (k : Conf) (st : St) : List Byte :=
  match serverAt k st with
  | .ready _ _ unread => unread ++ (clientStream k st).drop st.server.got.length
  | _ => []

/-- The octets for the reader of the client. -/
def clientRest (k : Conf) (st : St) : List Byte :=
  match clientAt st with
  | .equal unread => unread ++ (serverStream k st).drop st.client.got.length
  | _ => []

/-- What the handler of the server is told, server_endpoint.hpp:40-51 -/
def serverTells : Server → List Told
  | .ready token _ _ => [.ready token]
  | .badRequest => [.badRequest]
  | .error => [.error]
  | .waiting => []
  | .ub => [.ub]

/-- What the handler of the client is told, client_endpoint.hpp:55-62; there is no token. -/
def clientTells : Expect → List Told
  | .equal _ => [.ready []]
  | .badRequest => [.badRequest]
  | .waiting => []

def isReady : Server → Bool
  | .ready _ _ _ => true
  | _ => false

def isEqual : Expect → Bool
  | .equal _ => true
  | _ => false

/-- What happens; `true` is the client. -/
inductive Ev
  /-- at most `n` more octets arrive during the handshake -/
  | hear (who : Bool) (n : Nat)
  /-- the read of the handshake fails, or ends because the connection was shut down -/
  | lose (who : Bool)
  /-- something happens at the endpoint (`Link.Act`) -/
  | act (who : Bool) (x : Act)

/-- Octets arrive at the reader, as `Link.act` has it, from `rest`. -/
def readMore (c : Link.Conf) (me : Side) (rest : List Byte) (n : Nat) : Cpp Side :=
  if (me.state c).reading then
    match reports c.hw me.got, reports c.hw (me.got ++ (rest.drop me.got.length).take n) with
    | some old, some new => .ok ⟨me.ins ++ new.drop old.length,
        me.got ++ (rest.drop me.got.length).take n⟩
    | _, _ => .ub
  else .ok me

/-- What may happen before the endpoint is ready: its user may call `send_message` and `send_close`
(endpoint_impl.hpp:146-174) and `stop` (358-368). -/
def early : Act → Bool
  | .send _ | .close | .stop => true
  | _ => false

/-- Something happens at an endpoint; `peer` is the side of the other one, which `Link.act` looks at
for arrivals only. -/
def actAt (c : Link.Conf) (me : Peer) (peer : Side) (ready : Bool) (rest : List Byte) (x : Act) : Cpp Peer :=
  if ready = false ∧ early x = false then .ok me
  else
    match x with
    | .arrive n => (readMore c me.side rest n).map fun s => { me with side := s }
    | .stop => (Link.act c me.side peer .stop).map fun s => { me with side := s, told := me.told ++ [.stopped] }
    | x => (Link.act c me.side peer x).map fun s => { me with side := s }

/-- One step. -/
def step (k : Conf) (st : St) : Ev → Cpp St
  | .hear true n =>
    if clientAt st = .waiting ∧ st.client.failed = false then
      match st.client.got ++ ((serverStream k st).drop st.client.got.length).take n with
      | got => .ok { st with client := { st.client with got := got, told := st.client.told ++ clientTells (client got) } }
    else .ok st
  | .hear false n =>
    if serverAt k st = .waiting ∧ st.server.failed = false then
      match st.server.got ++ ((clientStream k st).drop st.server.got.length).take n with
      | got => .ok { st with server := { st.server with got := got, told := st.server.told ++ serverTells (server k.nul k.sched got) } }
    else .ok st
  | .lose true =>
    if clientAt st = .waiting ∧ st.client.failed = false then
      .ok { st with client := { st.client with failed := true, told := st.client.told ++ [.error] } }
    else .ok st
  | .lose false =>
    if serverAt k st = .waiting ∧ st.server.failed = false then
      .ok { st with server := { st.server with failed := true, told := st.server.told ++ [.error] } }
    else .ok st
  | .act true x =>
    (actAt k.link st.client st.server.side (isEqual (clientAt st)) (clientRest k st) x).map fun p => { st with client := p }
  | .act false x =>
    (actAt k.link st.server st.client.side (isReady (serverAt k st)) (serverRest k st) x).map fun p => { st with server := p }

/-- Any history of a new pair. -/
def run (k : Conf) (st : St) : List Ev → Cpp St
  | [] => .ok st
  | e :: es => (step k st e).bind fun st => run k st es

def session (k : Conf) (es : List Ev) : Cpp St := run k {} es

end Nbdl.Session
