import Verif.Async.Model
import Verif.RawMsg.Model
/-!
# The example program with pipes

Models `/repo/example/pipes/main.cpp` (lines 91-168): in one process, a client connects to a server, sends it a list of
messages one after the other, and the server acts on each until the terminating one.  The client is the pipeline of
lines 128-144 (run as in `Verif.Async`), the server the pipeline of lines 147-157 (`receive_messages_until`, as in
`Verif.RawMsg`); between them is a stream of bytes.

Simplifications.
* The address can be bound and the server accepts the connection when the client's `async_connect` succeeds
  (`/repo/example/pipes/accept.hpp:34-53`).
* The bytes of a write may arrive from the moment it is started, in any pieces; what has not arrived of a write that
  fails may as well not have been written.
* Values of the client's pipeline: nothing, a message (in its variant), a text.
-/
namespace Nbdl.Pipes
open Async (Step St Event settle advance)
open Promise (Call)
open RawMsg (App Obs)

variable {M X : Type}

/-- Values handed from step to step in the client. -/
inductive Val (M : Type) where
  | nothing
  | message (m : M)
  | text (b : List Byte)

/-- Rejections in the client: `example::attempts`, `std::exception` (or `std::runtime_error`), `std::error_code`. -/
inductive Rej where
  | attempts
  | exception
  | io (e : Nat)
  deriving DecidableEq, Repr

/-- Operations the client starts: `async_connect` (until it succeeds or the attempts are used up), `async_write`. -/
inductive Op where
  | connect
  | write (bytes : List Byte)
  deriving DecidableEq, Repr

/-- `send_message`, main.cpp:128-134; `encode` is `jsoncpp::to_string`, which may throw; the body is written by
`write_raw_message` (`/repo/example/pipes/write_raw_message.hpp:26-50`). -/
def sendOne (encode : M → Except X (List Byte)) (k : Nat) (m : M) : List (Step (Val M) Rej X Op) :=
  [.func (3 * k + 5) fun _ => .ok (.message m),
   .try_ (3 * k + 6) fun
     | .message m => (encode m).map .text
     | v => .ok v,
   .promise (3 * k + 7) fun
     | .text b => .write (RawMsg.write b)
     | _ => .write []]

/-- `hana::unpack(messages, pipe ^on^ send_message)`, main.cpp:140 -/
def sendAll (encode : M → Except X (List Byte)) : Nat → List M → List (Step (Val M) Rej X Op)
  | _, [] => []
  | k, m :: ms => sendOne encode k m ++ sendAll encode (k + 1) ms

/-- The handlers of the client, main.cpp:141-143. -/
def handlers : List (Step (Val M) Rej X Op) :=
  [.catch_ 2 (fun e => e == .attempts) fun _ => none,
   .catch_ 3 (fun e => e == .exception) fun _ => none,
   .catch_ 4 (fun _ => true) fun _ => none]

/-- `send_messages`, main.cpp:137-144 -/
def client (encode : M → Except X (List Byte)) (ms : List M) : List (Step (Val M) Rej X Op) :=
  .promise 0 (fun _ => .connect) :: .tap 1 (fun _ => none) :: (sendAll encode 0 ms ++ handlers)

/-- The program's part: how messages are encoded, what the server makes of them, how many attempts are made to connect
(10 unless said otherwise, `/repo/example/pipes/connect.hpp:36`), and the messages. -/
structure Prog (M X : Type) where
  encode : M → Except X (List Byte)
  app : App M
  attempts : Int
  messages : List M

/-- The process. -/
structure Sys (M X : Type) where
  client : St (Val M) Rej X Op
  /-- what the client has done -/
  log : List (Event (Val M) Rej X Op)
  /-- the operation the client waits for -/
  op : Option Op
  /-- `attempts_failed`, connect.hpp:34 -/
  failed : Nat
  /-- the bytes the client has written -/
  sent : List Byte
  /-- how many of them have arrived at the server -/
  got : Nat
  server : RawMsg.St
  /-- what the server has done -/
  seen : List (Obs M)

/-- Inputs. -/
inductive In where
  /-- a connection attempt succeeds or fails -/
  | attempt (ok : Bool)
  /-- the client's write completes -/
  | wrote
  | writeFailed (e : Nat)
  /-- at most `k` bytes arrive at the server -/
  | arrive (k : Nat)
  /-- the server's read fails -/
  | lost (e : Nat)
  deriving DecidableEq, Repr

/-- The operations started by some steps of the pipeline. -/
def started : List (Event (Val M) Rej X Op) → List Op
  | [] => []
  | .asked o :: t => o :: started t
  | _ :: t => started t

/-- The bytes of an operation. -/
def Op.bytes : Op → List Byte
  | .connect => []
  | .write b => b

/-- The client goes on. -/
def carry (s : Sys M X) (r : St (Val M) Rej X Op × List (Event (Val M) Rej X Op)) : Sys M X :=
  { s with client := r.1, log := s.log ++ r.2, op := (started r.2).getLast?
           sent := s.sent ++ (started r.2).flatMap Op.bytes }

/-- The server's read completes or fails. -/
def serve (p : Prog M X) (s : Sys M X) (i : RawMsg.In) : Sys M X :=
  { s with server := (RawMsg.recvStep p.app s.server i).1, seen := s.seen ++ (RawMsg.recvStep p.app s.server i).2 }

/-- `try_` rejects with an exception (`/repo/include/nbdl/try.hpp:39-42`). -/
def toRej (_ : X) : Rej := .exception

/-- `run_async` of both pipelines, main.cpp:159-160. -/
def start (p : Prog M X) : Sys M X :=
  carry ⟨.over, [], none, 0, [], 0, .receiving (.length []), []⟩ (advance toRej (client p.encode p.messages) .nothing)

/-- One completion handler is run by `io.run()`, main.cpp:165. -/
def step (p : Prog M X) (s : Sys M X) : In → Sys M X
  | .attempt ok =>
    match s.op with
    | some .connect =>
      -- connect.hpp:47-61
      if ok then carry s (settle toRej s.client (.resolve .nothing))
      else if (s.failed : Int) ≥ p.attempts then
        carry { s with failed := s.failed + 1 } (settle toRej s.client (.reject .attempts))
      else { s with failed := s.failed + 1 }
    | _ => s
  | .wrote =>
    match s.op with
    | some (.write _) => carry s (settle toRej s.client (.resolve .nothing))
    | _ => s
  | .writeFailed e =>
    match s.op with
    | some (.write _) => carry s (settle toRej s.client (.reject (.io e)))
    | _ => s
  | .arrive k =>
    serve p { s with got := s.got + ((s.sent.drop s.got).take k).length } (.bytes ((s.sent.drop s.got).take k))
  | .lost e => serve p s (.error e)

def run (p : Prog M X) (h : List In) : Sys M X := h.foldl (step p) (start p)

end Nbdl.Pipes
