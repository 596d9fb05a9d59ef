import Verif.Nested.Model
/-!
# A server that echoes, and its clients

Models the program of `/repo/test/nbdl/app/server_client.cpp` for any number of clients and messages: the server's
context has the echo producer (`/repo/include/nbdl/echo_producer.hpp`) and, as a consumer, `app::server`
(`/repo/include/nbdl/app/server.hpp:113-182`, `/repo/include/nbdl/app/server_connection.hpp:39-82`); each client's
context has `app::client` as the producer (`/repo/include/nbdl/app/client.hpp:26-91`) and a consumer of the
program's (`/repo/test/include/nbdl_test/consumer.hpp`).  The contexts are machines of `Verif.Nested`, since the echo
producer pushes while the context is calling it.

Simplifications.
* A connection is a queue in each direction, see `Verif.Replica`; `Verif.ApiSig`, `Verif.Deser` and `Verif.Bind` are about
  what is done to the messages on the way.
* A client does not connect again (client.hpp:32-39: it is commented out).
* The paths are complete and there are no stores (server_client.cpp:43-50).
-/
namespace Nbdl.Relay
open MapStore (Msg View Payload)
open Context (Config Actor StoreOps)
open Nested (Code Prog Call)

variable {P V : Type}

/-- A message on a connection, and its path type. -/
abbrev Wire (P V : Type) := Nat × Msg P V

/-- What a client's program may ask for; the echo producer takes no reads. -/
inductive Req (P V : Type) where
  | create (p : P) (v : V)
  | update (p : P) (v : V)
  | delete (p : P)
  deriving DecidableEq, Repr

/-- The message made of it, message.hpp:498-595. -/
def Req.msg : Req P V → Msg P V
  | .create p v => .upCreate p v
  | .update p v => .upUpdate p v
  | .delete p => .upDelete p

/-- `null_store`, without a `Store` in the definition (enumerate_access_points.hpp:68-69). -/
def nothing : StoreOps Unit P V where
  never _ := true
  apply s _ := (s, false)
  view _ _ := .notInSet
  foreign s _ _ := (s, [])

/-- A context with one producer and one consumer, server_client.cpp:52-84. -/
def config : Config Unit P V where
  actors := [⟨true, false, false⟩, ⟨false, true, false⟩]
  producerOf _ := 0
  listeners _ := []
  ops _ := nothing

/-- The actors of the server: the echo producer, echo_producer.hpp:64-88, and `app::server`, whose variable is what it
sends to every connection, server.hpp:176-182. -/
def serverCode : Code (List (Wire P V)) P V
  | .up 0 t m => Nested.echo (.up 0 t m)
  | .down 1 t m => .get fun ws => .put (ws ++ [(t, m)]) .done
  | _ => .done

/-- The actors of a client: `app::client` sends what goes upstream, client.hpp:74-82, and the consumer is handed what
comes downstream; the variables are what is sent and what is handed over. -/
def clientCode : Code (List (Wire P V) × List (Wire P V)) P V
  | .up 0 t m => .get fun w => .put (w.1 ++ [(t, m)], w.2) .done
  | .down 1 t m => .get fun w => .put (w.1, w.2 ++ [(t, m)]) .done
  | _ => .done

/-- `nbdl::apply_message(context, m)` until it returns (`rests`): the variables of the actors. -/
def pushed {A : Type} (code : Code A P V) (a : A) (t : Nat) (m : Msg P V) : Nested.State A Unit P V :=
  Nested.run config code 12 (Nested.start (fun _ => ()) a (.push t m .done))

/-- A connection. -/
inductive Conn where
  | fresh | opened | closed
  deriving DecidableEq, Repr

/-- A client: its connection, what it has sent and the server has not read, what the server has sent and it has not
read, and what its consumer has been handed. -/
structure Client (P V : Type) where
  conn : Conn
  outbox : List (Wire P V)
  inbox : List (Wire P V)
  handed : List (Wire P V)

abbrev Sys (P V : Type) := List (Client P V)

/-- What can happen next. -/
inductive Step (P V : Type) where
  /-- a client's program applies a message to its context, server_client.cpp:145-152 -/
  | send (i t : Nat) (r : Req P V)
  /-- the server registers the connection, server_connection.hpp:39-43 -/
  | accept (i : Nat)
  /-- the server unregisters it, server_connection.hpp:45-49 -/
  | leave (i : Nat)
  /-- the server reads a message of a client and applies it to its context, server_connection.hpp:75-76 -/
  | serve (i : Nat)
  /-- a client reads a message and applies it to its context, client.hpp:30-31 -/
  | deliver (i : Nat)

/-- What is sent to every connection when the server has read a message. -/
def answers (t : Nat) (m : Msg P V) : List (Wire P V) := (pushed serverCode [] t m).world.vars

/-- `server_impl::send_message`, server.hpp:176-182, for all that is to be sent. -/
def broadcast (ws : List (Wire P V)) (c : Client P V) : Client P V :=
  match c.conn with
  | .opened => ⟨c.conn, c.outbox, c.inbox ++ ws, c.handed⟩
  | _ => c

/-- A message is applied to a client's context. -/
def clientPush (c : Client P V) (t : Nat) (m : Msg P V) : Client P V :=
  ⟨c.conn, c.outbox ++ (pushed clientCode ([], []) t m).world.vars.1, c.inbox,
    c.handed ++ (pushed clientCode ([], []) t m).world.vars.2⟩

/-- A client reads a message, if there is one. -/
def clientRead (c : Client P V) : Client P V :=
  match c.inbox with
  | [] => c
  | (t, m) :: rest => clientPush ⟨c.conn, c.outbox, rest, c.handed⟩ t m

/-- One step; of a client that does not exist, or has no connection to read from, it does nothing. -/
def step (s : Sys P V) : Step P V → Sys P V
  | .send i t r => s.modify i fun c => clientPush c t r.msg
  | .accept i => s.modify i fun c => if c.conn = .fresh then ⟨.opened, c.outbox, c.inbox, c.handed⟩ else c
  | .leave i => s.modify i fun c => if c.conn = .opened then ⟨.closed, c.outbox, c.inbox, c.handed⟩ else c
  | .serve i =>
    match s[i]? with
    | some ⟨.opened, (t, m) :: rest, _, _⟩ =>
      (s.modify i fun c => ⟨c.conn, rest, c.inbox, c.handed⟩).map (broadcast (answers t m))
    | _ => s
  | .deliver i => s.modify i clientRead

/-- A history. -/
def run (s : Sys P V) : List (Step P V) → Sys P V
  | [] => s
  | x :: h => run (step s x) h

/-- `n` clients that have been started, client.hpp:70-72. -/
def start (n : Nat) : Sys P V := List.replicate n ⟨.fresh, [], [], []⟩

end Nbdl.Relay
