import Verif.Endpoint.Model
/-!
# The lifetime of a websocket endpoint

`endpoint_open` returns a `std::shared_ptr` to the endpoint
(`/repo/include/nbdl/websocket/server_endpoint.hpp`:73-78, `/repo/include/nbdl/websocket/client_endpoint.hpp`:43-67).  Others that own it
are the loop of the reader, from `start_messaging` on (message_reader.hpp:292, endpoint_impl.hpp:183, both in
`/repo/include/nbdl/websocket/detail`),
and the loop of the sender (endpoint_impl.hpp:202, 207).  Here the endpoint of `Verif.Endpoint` is destroyed
when the last owner is gone.

* The handshake owns nothing: its functions hold references to the endpoint and its handler
  (server_endpoint.hpp:36-54, client_endpoint.hpp:51-65).
* The write of a close frame owns nothing: `resolver.terminate()` deletes the loop of the sender when the
  write has begun (endpoint_impl.hpp:213-232, run_async_loop.hpp:55-59), and the functions that wait for its end
  use the endpoint.
* When the socket is destroyed, what is under way is completed with an error by asio: completions come in any
  case.

Simplification: the handler itself, which is part of the endpoint, may be destroyed while it runs if it lets go
of the last owner; this is taken to be harmless unless the endpoint is used afterwards.
-/
namespace Nbdl.Lifetime
open Endpoint (In Frame Err Note Obs)

variable {α : Type}

/-- What the user can do with an endpoint: the functions, and letting go of the pointer. -/
inductive Api (α : Type) where
  | send (m : α) | close | start | stop | letGo

/-- The call, for `Verif.Endpoint`. -/
def Api.toIn : Api α → Option (In α)
  | .send m => some (.send m)
  | .close => some .close
  | .start => some .start
  | .stop => some .stop
  | .letGo => none

/-- What happens: the user's code does something; the handshake is over and the handler is called; the reader
or a write reports something, and the handler, if it is called, does `calls`. -/
inductive Event (α : Type) where
  | user (a : Api α)
  | shaken (calls : List (Api α))
  | net (i : In α) (calls : List (Api α))

/-- The endpoint, whether the handshake is under way, whether the user holds the pointer, whether it has been
destroyed, and whether it has been used afterwards. -/
structure St (α : Type) where
  ep : Endpoint.St α := {}
  shaking : Bool := true
  held : Bool := true
  gone : Bool := false
  bad : Bool := false

/-- The loop of the sender exists: a message is being written. -/
def sending (s : Endpoint.St α) : Bool :=
  match s.inflight with
  | some (.data _) => true
  | _ => false

/-- There is an owner. -/
def St.owned (s : St α) : Bool := s.held || s.ep.reading || sending s.ep

/-- The destructor runs when there is no owner. -/
def St.release (s : St α) : St α := if s.owned then s else { s with gone := true }

/-- One call by the user. -/
def St.call (conv : Bool) (s : St α) (a : Api α) : St α :=
  match a.toIn with
  | some i => { s with ep := (Endpoint.step conv s.ep i).1 }
  | none => { s with held := false }

/-- The calls of the handler.  `kept`: whoever called the handler owns the endpoint meanwhile. -/
def St.calls (conv kept : Bool) (s : St α) : List (Api α) → St α
  | [] => s
  | a :: as =>
    if s.gone then { s with bad := true }
    else St.calls conv kept (if kept then s.call conv a else (s.call conv a).release) as

/-- An input of `Verif.Endpoint` that comes from the network. -/
def fromNet : In α → Bool
  | .send _ | .close | .start | .stop => false
  | _ => true

/-- The completion of a write. -/
def completes : In α → Bool
  | .wrote | .writeFailed _ => true
  | _ => false

/-- Whoever reports the input owns the endpoint: the loop of the reader (message_reader.hpp:292-295), and the
loop of the sender for messages (endpoint_impl.hpp:207, 240-285), but not the write of a close frame. -/
def keeps (s : Endpoint.St α) (i : In α) : Bool := !completes i || sending s

/-- The handler was called. -/
def told (obs : List (Obs α)) : Bool :=
  obs.any fun o => match o with
    | .note _ => true
    | _ => false

/-- One event.  The user cannot do anything without the pointer, except in the handler, which is passed the
endpoint. -/
def step (conv : Bool) (s : St α) : Event α → St α
  | .user a => if s.gone || !s.held then s else (s.call conv a).release
  | .shaken calls =>
    if !s.shaking then s
    else if s.gone then { s with bad := true }
    else (St.calls conv false { s with shaking := false } calls).release
  | .net i calls =>
    if !fromNet i then s
    else if s.gone then
      if completes i && s.ep.inflight.isSome then { s with bad := true } else s
    else
      let r := Endpoint.step conv s.ep i
      let s' : St α := { s with ep := r.1 }
      if told r.2 then (St.calls conv (keeps s.ep i) s' calls).release else s'.release

/-- Any sequence of events. -/
def run (conv : Bool) (s : St α) : List (Event α) → St α
  | [] => s
  | e :: es => run conv (step conv s e) es

end Nbdl.Lifetime
