import Verif.Context.Model
import Verif.Context.Props
/-!
# A server and its clients

Models how `/repo/include/nbdl/app/server.hpp` (lines 113–131, 176–182),
`/repo/include/nbdl/app/server_connection.hpp` (lines 39–82), `/repo/include/nbdl/app/client.hpp`
(lines 26–91), and `/repo/include/nbdl/app/context_endpoint.hpp` (lines 29–37) join the contexts of
a server and of its clients (`/repo/include/nbdl/context.hpp`, modelled in `Verif.Context`), all of
whose stores are map stores (`/repo/include/nbdl/map_store.hpp`, modelled in `Verif.MapStore`).

Simplifications.
* A connection is a queue of messages in each direction: what is put in comes out, whole and in
  order.  That the bytes do so is the business of `Verif.Endpoint`, `Verif.Deser`, `Verif.DeserJs`
  and of the sockets, which are not part of `/repo`.
* What is on the way when a connection ends may arrive or not: the schedule need never deliver it.
* Server and clients each run in one thread, so that `push` is one step; whole programs interleave
  in any order.
-/
namespace Nbdl.Replica
open MapStore (Msg Map Payload)
open Context (Config push matchCtx sentUp sentDown)
variable {P V : Type} [DecidableEq P]

/-- The stores of a context, by path type. -/
abbrev Stores (P V : Type) := Nat → Map P V

/-- A message on a connection; the path type is its tag (`Verif.Delta`, `Verif.ApiSig`). -/
abbrev Wire (P V : Type) := Nat × Msg P V

/-- The contexts of server and clients: their actors, which of them is the `app::server` (a consumer
of its context) and which the `app::client` (a producer of its). -/
structure Setup (P V : Type) where
  server : Config (Map P V) P V
  serverActor : Nat
  client : Config (Map P V) P V
  clientActor : Nat

/-- One client: its context's stores, what the server has sent and the client not yet read, what the
client has sent and the server not yet read, and whether the server has it in its list of
connections. -/
structure Client (P V : Type) where
  stores : Stores P V
  inbox : List (Wire P V)
  outbox : List (Wire P V)
  registered : Bool

/-- The whole system. -/
structure Sys (P V : Type) where
  server : Stores P V
  clients : List (Client P V)

/-- What can happen next. -/
inductive Step (P V : Type) where
  /-- a program starts, and its connection is registered: client.hpp:70-72 with
  server_connection.hpp:39-43 -/
  | join
  /-- a connection is unregistered, server_connection.hpp:45-49 -/
  | leave (i : Nat)
  /-- another actor, or the server's program, applies a message to the server's context -/
  | produce (t : Nat) (m : Msg P V)
  /-- the server reads a message of a client -/
  | serve (i : Nat)
  /-- a client reads a message of the server -/
  | deliver (i : Nat)
  /-- a client's program applies a message to its context -/
  | act (i : Nat) (t : Nat) (m : Msg P V)
  /-- a client's program matches a path of its context -/
  | look (i : Nat) (t : Nat) (p : P)

/-- New stores. -/
def fresh : Stores P V := fun _ => MapStore.empty

/-- Nobody has connected and nothing is stored. -/
def start : Sys P V := ⟨fresh, []⟩

/-- What the context tells one of its consumers to send downstream. -/
def downTo (a : Nat) (es : List (Context.Event (Map P V) P V)) : List (Wire P V) :=
  (sentDown es).filterMap fun x => if x.1 = a then some x.2 else none

/-- What the context tells one of its producers to send upstream. -/
def upTo (a : Nat) (es : List (Context.Event (Map P V) P V)) : List (Wire P V) :=
  (sentUp es).filterMap fun x => if x.1 = a then some x.2 else none

/-- `server_impl::send_message`, server.hpp:176-182: every message to every connection. -/
def broadcast (ws : List (Wire P V)) (c : Client P V) : Client P V :=
  if c.registered then { c with inbox := c.inbox ++ ws } else c

/-- A message is applied to the server's context: by `apply_read`, context_endpoint.hpp:31-37, or
another actor. -/
def serverPush (u : Setup P V) (s : Sys P V) (t : Nat) (m : Msg P V) : Sys P V :=
  let r := push u.server s.server t m
  ⟨r.1, s.clients.map (broadcast (downTo u.serverActor r.2))⟩

/-- A message is applied to a client's context; `client_impl::send_message`, client.hpp:74-82, sends
what goes upstream. -/
def clientPush (u : Setup P V) (c : Client P V) (t : Nat) (m : Msg P V) : Client P V :=
  let r := push u.client c.stores t m
  { c with stores := r.1, outbox := c.outbox ++ upTo u.clientActor r.2 }

/-- `match` on a client's context, context.hpp:306-336. -/
def clientLook (u : Setup P V) (c : Client P V) (t : Nat) (p : P) : Client P V :=
  let r := matchCtx u.client c.stores t p
  { c with stores := r.1, outbox := c.outbox ++ upTo u.clientActor r.2.1 }

/-- `apply_read` at the client, client.hpp:30-31, context_endpoint.hpp:31-37. -/
def clientRead (u : Setup P V) (c : Client P V) : Client P V :=
  match c.inbox with
  | [] => c
  | (t, m) :: rest => clientPush u { c with inbox := rest } t m

/-- One step; steps of a client which does not exist do nothing. -/
def step (u : Setup P V) (s : Sys P V) : Step P V → Sys P V
  | .join => { s with clients := s.clients ++ [⟨fresh, [], [], true⟩] }
  | .leave i => { s with clients := s.clients.modify i fun c => { c with registered := false } }
  | .produce t m => serverPush u s t m
  | .serve i =>
    -- server_connection.hpp:75-76
    match s.clients[i]? with
    | some ⟨_, _, (t, m) :: rest, _⟩ =>
      serverPush u { s with clients := s.clients.modify i fun c => { c with outbox := rest } } t m
    | _ => s
  | .deliver i => { s with clients := s.clients.modify i (clientRead u) }
  | .act i t m => { s with clients := s.clients.modify i fun c => clientPush u c t m }
  | .look i t p => { s with clients := s.clients.modify i fun c => clientLook u c t p }

/-- A history. -/
def run (u : Setup P V) (s : Sys P V) (h : List (Step P V)) : Sys P V := h.foldl (step u) s

end Nbdl.Replica
