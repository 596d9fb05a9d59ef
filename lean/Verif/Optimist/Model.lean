import Verif.Delta.Model
/-!
# Clients that show changes before they are confirmed

Each client keeps an entity in a `local_version` (`/repo/include/nbdl/local_version.hpp`, modelled in `Verif.Delta`)
and asks a server to change it.  The server carries changes out one after the other, makes each of them a downstream
message (`to_downstream`, `/repo/include/nbdl/message.hpp:221-232`, `to_downstream_confirmed`,
`/repo/include/nbdl/fwd/message.hpp:245-248`) and sends it to all clients, the one which asked for it included (`/repo/include/nbdl/app/server.hpp:176-182`).

Simplifications.
* One entity, whose members are `T 0 … T (n - 1)`; messages carry a uid and a delta, as `local_version` demands
  (local_version.hpp:120-136).
* A connection is a queue in each direction, as in `Verif.Replica`; messages arrive in order.
* A client begins with the entity as it is at the server when its connection is registered (the answer to its first
  read); the server has the plain entity.
* The flag `conf` says whether the server marks its messages as confirmed.  Marking is up to the program:
  `to_downstream_confirmed` does, `echo_producer` does not (`/repo/include/nbdl/echo_producer.hpp:82-85`).
-/
namespace Nbdl.Optimist
open Delta
variable {n : Nat} {T : Fin n → Type} {U : Type} [DecidableEq U] [∀ i, DecidableEq (T i)]

/-- A message that asks for a change, or says that it has been carried out. -/
abbrev Wire (U : Type) (T : Fin n → Type) := U × Delta T

/-- A client: its store, what the server has sent and it has not read, what it has sent and the server has not
read. -/
structure Client (U : Type) (T : Fin n → Type) where
  store : LocalVersion U T
  inbox : List (Wire U T)
  outbox : List (Wire U T)

/-- The entity at the server, and the clients. -/
structure Sys (U : Type) (T : Fin n → Type) where
  server : Record T
  clients : List (Client U T)

inductive Step (U : Type) (T : Fin n → Type) where
  /-- a client connects -/
  | join
  /-- the program of a client asks for a change -/
  | request (i : Nat) (u : U) (d : Delta T)
  /-- the server reads a message of a client -/
  | serve (i : Nat)
  /-- a client reads a message of the server -/
  | deliver (i : Nat)
  /-- the server's program changes the entity -/
  | change (u : U) (d : Delta T)

def start (v : Record T) : Sys U T := ⟨v, []⟩

/-- The program of a client applies an `upstream_update` to its store (local_version.hpp:110-156; no upstream message
is confirmed, message.hpp:434-439) and sends it (client.hpp:74-82).  It must do so itself: a context tests what
`apply_message` returns (context.hpp:200-204), which for a delta is nothing (local_version.hpp:131-155), so that a
context with such a store does not compile. -/
def ask (u : U) (d : Delta T) (c : Client U T) : Client U T :=
  { c with store := (applyMessage c.store (.request u d)).1, outbox := c.outbox ++ [(u, d)] }

/-- `server_impl::send_message`, server.hpp:176-182 -/
def tell (x : Wire U T) (c : Client U T) : Client U T := { c with inbox := c.inbox ++ [x] }

/-- A client reads a message (client.hpp:30-31) and applies it to its store. -/
def hear (conf : Bool) (c : Client U T) : Client U T :=
  match c.inbox with
  | [] => c
  | (u, d) :: rest =>
    { c with store := (applyMessage c.store (if conf then .confirmed u d else .request u d)).1, inbox := rest }

/-- The server carries out a change and tells it to all clients. -/
def carryOut (s : Sys U T) (x : Wire U T) : Sys U T := ⟨(apply x.2 s.server).1, s.clients.map (tell x)⟩

/-- One step; steps of a client that does not exist do nothing. -/
def step (conf : Bool) (s : Sys U T) : Step U T → Sys U T
  | .join => { s with clients := s.clients ++ [⟨LocalVersion.init s.server, [], []⟩] }
  | .request i u d => { s with clients := s.clients.modify i (ask u d) }
  | .serve i =>
    match s.clients[i]? with
    | some ⟨_, _, x :: rest⟩ =>
      carryOut { s with clients := s.clients.modify i fun c => { c with outbox := rest } } x
    | _ => s
  | .deliver i => { s with clients := s.clients.modify i (hear conf) }
  | .change u d => carryOut s (u, d)

def run (conf : Bool) (s : Sys U T) (h : List (Step U T)) : Sys U T := h.foldl (step conf) s

end Nbdl.Optimist
