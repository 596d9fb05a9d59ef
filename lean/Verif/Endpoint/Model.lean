import Verif.Common
/-!
# The websocket endpoint

Models `/repo/include/nbdl/websocket/detail/endpoint_impl.hpp` (lines 34–368) as an event-driven
state machine.  Payloads are an arbitrary type `α`.

Simplifications.
* An input (`In`) is one call into the endpoint: an API call by the user, an event reported by the
  message reader, or the completion of the network write in flight.  The asio event loop runs them
  one at a time.
* The user's handler is called as the last action of whatever called it (endpoint_impl.hpp:223-226,
  263-285, 307-342), so API calls made from inside a handler are the same as API calls made right
  after: they are simply the next inputs.
* All fragments of a message are one write (message_sender.hpp:139-174 sends them one after the
  other and only then resolves); the octets are modelled in `Verif/Ws/Model.lean`.
* The user is assumed to hold a reference to the endpoint, so it is not destroyed meanwhile; without that
  assumption: `Verif/Lifetime/Model.lean`.
* The queue is `std::queue` (front/pop/push/size).
-/
namespace Nbdl.Endpoint

/-- `control_frame_kind`, endpoint_impl.hpp:34-39. -/
inductive Kind | none | close | pong
  deriving DecidableEq, Repr

/-- What is handed to the network. `pong` exists in message_sender.hpp:198 (`send_pong`). -/
inductive Frame (α : Type) | data (m : α) | close | pong
  deriving DecidableEq, Repr

/-- Error codes, as far as endpoint_impl.hpp:268-270 distinguishes them:
`eof`/`connection_reset`, or anything else. -/
inductive Err | dropped | other
  deriving DecidableEq, Repr

/-- Calls of the user's handler (`call_handler` keys). -/
inductive Note (α : Type) | message (m : α) | close | badRequest | error (e : Err)
  deriving DecidableEq, Repr

/-- Inputs. -/
inductive In (α : Type)
  /-- `send_message`, 146-165 -/
  | send (m : α)
  /-- `send_close`, 167-174 -/
  | close
  /-- `start_messaging`, 176-190 -/
  | start
  /-- `stop`, 358-368 -/
  | stop
  /-- reader events, 301-344 -/
  | readMessage (m : α) | readClose | readPing | readPong | readBad | readError (e : Err)
  /-- completion of the write in flight -/
  | wrote | writeFailed (e : Err)
  deriving DecidableEq, Repr

/-- Observations. -/
inductive Obs (α : Type)
  | accepted (m : α)      -- the user called send_message
  | closeRequested        -- the user called send_close
  | stopped               -- the user called stop
  | received (k : In α)   -- the reader reported this event
  | begin (f : Frame α)   -- a network write of `f` was started
  | wrote (f : Frame α)   -- that write succeeded
  | failed (f : Frame α)  -- that write failed
  | note (n : Note α)     -- the user's handler was called
  | ub                    -- undefined behaviour
  deriving DecidableEq, Repr

/-- Member variables, endpoint_impl.hpp:128-143, plus `inflight` (the outstanding async_write),
`reading` (the reader loop is alive) and `broken` (undefined behaviour happened). -/
structure St (α : Type) where
  pending : Kind := .none
  queue : List α := []
  running : Bool := false
  started : Bool := false
  stopped : Bool := false
  closeReceived : Bool := false
  inflight : Option (Frame α) := none
  reading : Bool := false
  broken : Bool := false
  deriving DecidableEq, Repr

variable {α : Type}

/-- Start a network write. -/
def St.write (s : St α) (f : Frame α) : St α × List (Obs α) :=
  ({ s with inflight := some f }, [.begin f])

/-- `call_handler`, endpoint_impl.hpp:346-356. -/
def callHandler (s : St α) (n : Note α) : List (Obs α) :=
  if s.stopped then [] else [.note n]

/-- One round of the send loop up to its next suspension, endpoint_impl.hpp:206-253: the close
frame if one is pending (the outer loop is then terminated with `is_send_queue_running` left
true), otherwise the front of the queue, otherwise the loop ends. -/
def loop (s : St α) : St α × List (Obs α) :=
  match s.pending with
  | .close => s.write .close
  | _ =>
    match s.queue with
    | m :: _ => s.write (.data m)
    | [] => ({ s with running := false }, [])

/-- `start_send_queue`, endpoint_impl.hpp:192-203. -/
def startSendQueue (s : St α) : St α × List (Obs α) :=
  if s.running ∨ s.stopped ∨ ¬ s.started then (s, [])
  else loop { s with running := true }

/-- `control_frame::to_pong`, endpoint_impl.hpp:59-67. -/
def toPong : Kind → Kind
  | .close => .close
  | _ => .pong

/-- The write of `f` succeeded.  For the close frame 221-227: the user is told if the peer's close
frame was received.  For data 254-262: pop the queue and loop. -/
def onWrote (s : St α) : Frame α → St α × List (Obs α)
  | .close => (s, if s.closeReceived then callHandler s .close else [])
  | .data _ => loop { s with queue := s.queue.tail }
  | .pong => (s, [])

/-- The write of `f` failed with `e`.  For data 263-285: the loop stops and the user is told of a
close if ours is pending and the connection was dropped, of the error otherwise.  `conv` says whether
the `std::error_code` converts to the `boost::system::error_code` the first `catch_` expects;
otherwise the second, generic `catch_` reports the error.
For the close frame 228-231: the handler calls `resolver.reject` on the outer loop's resolver, which
line 219 (`resolver.terminate()`) already deleted (run_async_loop.hpp:55-59): undefined behaviour. -/
def onWriteFailed (conv : Bool) (s : St α) (e : Err) : Frame α → St α × List (Obs α)
  | .close => ({ s with broken := true }, [.ub])
  | .data _ =>
    let s := { s with running := false }
    (s, callHandler s (if conv = true ∧ s.pending = .close ∧ e = .dropped then .close else .error e))
  | .pong => (s, [])

/-- Reader events, `make_reader_handler` 301-344.  The reader loop ends after a close frame, a bad
opcode or an error (message_reader.hpp:292-295). -/
def onRead (s : St α) : In α → St α × List (Obs α)
  | .readMessage m => (s, callHandler s (.message m))
  | .readClose =>
    let s := { s with closeReceived := true, reading := false }
    if s.pending = .close then (s, callHandler s .close)
    else startSendQueue { s with pending := .close }
  | .readPing => ({ s with pending := toPong s.pending }, [])
  | .readBad => ({ s with reading := false }, callHandler s .badRequest)
  | .readError e => ({ s with reading := false }, callHandler s (.error e))
  | _ => (s, [])

/-- One input. Inputs the environment cannot produce in the current state (a completion without a
write in flight, a reader event without a reader) change nothing. -/
def step (conv : Bool) (s : St α) (i : In α) : St α × List (Obs α) :=
  if s.broken then (s, []) else
  match i with
  | .send m =>
    let r := startSendQueue { s with queue := s.queue ++ [m] }
    (r.1, .accepted m :: r.2)
  | .close =>
    let r := startSendQueue { s with pending := .close }
    (r.1, .closeRequested :: r.2)
  | .start =>
    if ¬ s.started ∧ ¬ s.stopped then
      let s := { s with started := true, reading := true }
      if s.queue.length > 0 then startSendQueue s else (s, [])
    else (s, [])
  | .stop => ({ s with stopped := true }, [.stopped])
  | .wrote =>
    match s.inflight with
    | some f =>
      let r := onWrote { s with inflight := none } f
      (r.1, .wrote f :: r.2)
    | none => (s, [])
  | .writeFailed e =>
    match s.inflight with
    | some f =>
      let r := onWriteFailed conv { s with inflight := none } e f
      (r.1, .failed f :: r.2)
    | none => (s, [])
  | i =>
    if s.reading then
      let r := onRead s i
      (r.1, .received i :: r.2)
    else (s, [])

/-- Any sequence of inputs. -/
def exec (conv : Bool) (s : St α) : List (In α) → St α × List (Obs α)
  | [] => (s, [])
  | i :: is =>
    let r := step conv s i
    let r' := exec conv r.1 is
    (r'.1, r.2 ++ r'.2)

/-- The trace of a new endpoint (constructor, endpoint_impl.hpp:92-110). -/
def trace (conv : Bool) (is : List (In α)) : List (Obs α) := (exec conv {} is).2

end Nbdl.Endpoint
