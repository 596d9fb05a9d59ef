import Verif.Replica.Model
import Verif.Deser.Model
import Verif.DeserJs.Model
/-!
# A server and its clients, connected by JSON

As `Verif.Replica`, but a connection carries what `/repo/include/nbdl/app/serializer.hpp` or
`serializer_js.hpp` makes of a message (`Verif.Deser`, `Verif.DeserJs`), and a message is applied if
the deserializer on the other side answers with it: `/repo/include/nbdl/app/client.hpp` lines 26–40 and
74–82, `/repo/include/nbdl/app/server_connection.hpp` lines 75–76, `/repo/include/nbdl/app/server.hpp`
lines 176–182.

Simplifications.
* A connection carries documents, each of which stands for its text; what the two JSON libraries make
  of each other's texts is in `JsBind.toServer` and `JsBind.toClient`.
* An answer that is an error is passed to `log_error` (client.hpp:29, server_connection.hpp:77); here
  nothing else happens and the connection goes on.
* See also `Verif.Replica`.
-/
namespace Nbdl.App
open Nbdl.Bind (Ty Tys Json)
open MapStore (Msg Map Payload)
open Context (push matchCtx)
open Replica (Wire Stores Setup Step downTo upTo fresh)
variable {P V : Type} [DecidableEq P]

/-- The messages of one direction of a context (`message_api`, see `Verif.Def`): the type of system
messages, the types of the messages, and how the messages of the contexts are values of these. -/
structure Api (P V : Type) where
  sys : Ty
  msgs : Tys
  enc : Wire P V → Bind.alts msgs
  dec : Bind.alts msgs → Wire P V

/-- What a client's program was compiled for. -/
inductive Platform where
  | native
  | browser (e : JsBind.Engine)

/-- The contexts, the messages of the two directions, and the clients' platform. -/
structure App (P V : Type) where
  setup : Setup P V
  upstream : Api P V
  downstream : Api P V
  platform : Platform

/-- The messages among the answers of a deserializer. -/
def received (i : Api P V) : List (Deser.Answer i.sys i.msgs) → List (Wire P V)
  | [] => []
  | .message m :: as => i.dec m :: received i as
  | _ :: as => received i as

/-- The server's deserializer, or the one of a client that is no browser, serializer.hpp:57-85: what
is answered to the text of a document. -/
def readNative (i : Api P V) (j : Json) : List (Wire P V) :=
  received i (Deser.deserialize i.sys i.msgs (fun _ => some j) [])

/-- The deserializer in the browser, serializer_js.hpp:42-68. -/
def readBrowser (e : JsBind.Engine) (i : Api P V) (j : Json) : List (Wire P V) :=
  received i (DeserJs.deserialize e i.sys i.msgs (JsBind.toClient e j))

/-- What the server writes, serializer.hpp:46-51. -/
def writeNative (i : Api P V) (w : Wire P V) : Json := Deser.serialize (sys := i.sys) (i.enc w)

/-- What a browser writes, serializer_js.hpp:31-36, client_connection_js.hpp:147-157. -/
def writeBrowser (e : JsBind.Engine) (i : Api P V) (w : Wire P V) : Json :=
  JsBind.toServer e (DeserJs.serialize e (sys := i.sys) (i.enc w))

/-- A client reads a document of the server. -/
def App.clientReads (a : App P V) : Json → List (Wire P V) :=
  match a.platform with
  | .native => readNative a.downstream
  | .browser e => readBrowser e a.downstream

/-- A client writes. -/
def App.clientWrites (a : App P V) : Wire P V → Json :=
  match a.platform with
  | .native => writeNative a.upstream
  | .browser e => writeBrowser e a.upstream

/-- One client, as `Replica.Client`. -/
structure Client (P V : Type) where
  stores : Stores P V
  inbox : List Json
  outbox : List Json
  registered : Bool

/-- The whole system. -/
structure Sys (P V : Type) where
  server : Stores P V
  clients : List (Client P V)

/-- Nobody has connected and nothing is stored. -/
def start : Sys P V := ⟨fresh, []⟩

/-- `server_impl::send_message`, server.hpp:176-182. -/
def broadcast (js : List Json) (c : Client P V) : Client P V :=
  if c.registered then { c with inbox := c.inbox ++ js } else c

/-- A message is applied to the server's context. -/
def serverPush (a : App P V) (s : Sys P V) (w : Wire P V) : Sys P V :=
  let r := push a.setup.server s.server w.1 w.2
  ⟨r.1, s.clients.map (broadcast ((downTo a.setup.serverActor r.2).map (writeNative a.downstream)))⟩

/-- A message is applied to a client's context; what goes upstream is sent, client.hpp:74-82. -/
def clientPush (a : App P V) (c : Client P V) (w : Wire P V) : Client P V :=
  let r := push a.setup.client c.stores w.1 w.2
  { c with stores := r.1, outbox := c.outbox ++ (upTo a.setup.clientActor r.2).map a.clientWrites }

/-- `match` on a client's context, context.hpp:306-336. -/
def clientLook (a : App P V) (c : Client P V) (t : Nat) (p : P) : Client P V :=
  let r := matchCtx a.setup.client c.stores t p
  { c with stores := r.1, outbox := c.outbox ++ (upTo a.setup.clientActor r.2.1).map a.clientWrites }

/-- The client's endpoint reads a document, client.hpp:30-31: every message that is answered is
applied. -/
def clientRead (a : App P V) (c : Client P V) : Client P V :=
  match c.inbox with
  | [] => c
  | j :: rest => (a.clientReads j).foldl (clientPush a) { c with inbox := rest }

/-- The server's endpoint reads a document of client `i`, server_connection.hpp:75-76. -/
def serverRead (a : App P V) (s : Sys P V) (i : Nat) : Sys P V :=
  match s.clients[i]? with
  | some ⟨_, _, j :: rest, _⟩ => (readNative a.upstream j).foldl (serverPush a)
      { s with clients := s.clients.modify i fun c => { c with outbox := rest } }
  | _ => s

/-- One step, as `Replica.step`. -/
def step (a : App P V) (s : Sys P V) : Step P V → Sys P V
  | .join => { s with clients := s.clients ++ [⟨fresh, [], [], true⟩] }
  | .leave i => { s with clients := s.clients.modify i fun c => { c with registered := false } }
  | .produce t m => serverPush a s (t, m)
  | .serve i => serverRead a s i
  | .deliver i => { s with clients := s.clients.modify i (clientRead a) }
  | .act i t m => { s with clients := s.clients.modify i fun c => clientPush a c (t, m) }
  | .look i t p => { s with clients := s.clients.modify i fun c => clientLook a c t p }

/-- A history. -/
def run (a : App P V) (s : Sys P V) (h : List (Step P V)) : Sys P V := h.foldl (step a) s

end Nbdl.App
