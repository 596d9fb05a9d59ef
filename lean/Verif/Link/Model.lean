import Verif.Endpoint.Model
import Verif.Ws.Model

/-!
# Two websocket endpoints connected to each other

Puts together the models of `/repo/include/nbdl/websocket/detail/endpoint_impl.hpp` (`Endpoint`, its
inputs and its state), `message_sender.hpp` and `message_reader.hpp` (`Ws`, octets): the octets that
one endpoint writes are read by the other one, and the reader's events are its inputs.

Simplifications.
* The handshake is over: both sides have a socket (`endpoint_impl.hpp` 92–110).
* The network keeps the order of the octets of each direction. It carries them in pieces of any size
  (`Act.arrive`), whenever it likes, or not at all any more.
* A write may succeed or fail whenever it likes. After a failed write nothing that this side writes
  arrives any more and no write succeeds. What was written of the failed frame is any part of it
  (what did not arrive may as well not have been written).
-/

namespace Nbdl.Link
open Nbdl.Endpoint (St In Obs Frame Err trace exec)
open Nbdl.Ws (sendMessage maxFrameSize opText opClose run)

/-- The payload of a message. -/
abbrev Msg := List Byte

/-- `send_pong`'s opcode, `message_sender.hpp` 25-34. -/
def opPong : Byte := 0xA#8

/-- The octets of a frame which is handed to the network: `send_text` (`op` is the opcode of the
`SendMessageImpl` the endpoint was made with), `send_close`, `send_pong`, `message_sender.hpp`
176–199. `send_close()` (`endpoint_impl.hpp` 167–174) leaves the payload of the close frame empty. -/
def octets (op : Byte) : Frame Msg → List Byte
  | .data m => sendMessage maxFrameSize (by decide) op m
  | .close => sendMessage maxFrameSize (by decide) opClose []
  | .pong => sendMessage maxFrameSize (by decide) opPong []

/-- The octets of all writes which were begun before a write failed. -/
def written (op : Byte) : List (Obs Msg) → List Byte
  | [] => []
  | .begin f :: t => octets op f ++ written op t
  | .failed _ :: _ => []
  | _ :: t => written op t

/-- Has a write failed? -/
def dead : List (Obs Msg) → Bool
  | [] => false
  | .failed _ :: _ => true
  | _ :: t => dead t

/-- How the endpoints are made: the opcode of messages, whether error codes convert (see `Endpoint`),
and the rule for shifts (see `Ws`). -/
structure Conf where
  op : Byte
  conv : Bool
  hw : Bool

/-- One side: all the inputs its endpoint got so far, and the octets its reader got so far. The state
of the endpoint is the one `Endpoint.exec` gives. -/
structure Side where
  ins : List (In Msg) := []
  got : List Byte := []

/-- The state of the endpoint. -/
def Side.state (c : Conf) (s : Side) : St Msg := (exec c.conv {} s.ins).1

/-- What happened at the endpoint. -/
def Side.seen (c : Conf) (s : Side) : List (Obs Msg) := trace c.conv s.ins

/-- The octets it handed to the network. -/
def Side.out (c : Conf) (s : Side) : List Byte := written c.op (s.seen c)

/-- A message or control event of the reader, `message_reader.hpp` 276–291, as an input of the
endpoint, `endpoint_impl.hpp` 301–344. -/
def eventIn : Ws.Event → In Msg
  | .message m => .readMessage m
  | .ping => .readPing
  | .pong => .readPong

/-- What the reader reports for the octets it got so far. `none` is undefined behaviour. -/
def reports (hw : Bool) (got : List Byte) : Option (List (In Msg)) :=
  match run hw [] got with
  | (es, .waiting) => some (es.map eventIn)
  | (es, .close _) => some (es.map eventIn ++ [.readClose])
  | (es, .badInput) => some (es.map eventIn ++ [.readBad])
  | (_, .ub) => none

/-- What happens at one side. -/
inductive Act
  /-- the user calls `send_message`, `send_close`, `start_messaging`, `stop` -/
  | send (m : Msg) | close | start | stop
  /-- the write in flight succeeds or fails -/
  | wrote | writeFailed (e : Err)
  /-- at most `n` more octets of the other side arrive at the reader -/
  | arrive (n : Nat)
  /-- the reader is told of an error of the connection -/
  | lost (e : Err)

/-- One side does something; `peer` is the other one. An arrival is reported only as far as it was
not reported before; nothing arrives while the reader is not reading. -/
def act (c : Conf) (me peer : Side) : Act → Cpp Side
  | .send m => .ok { me with ins := me.ins ++ [.send m] }
  | .close => .ok { me with ins := me.ins ++ [.close] }
  | .start => .ok { me with ins := me.ins ++ [.start] }
  | .stop => .ok { me with ins := me.ins ++ [.stop] }
  | .wrote => .ok (if dead (me.seen c) then me else { me with ins := me.ins ++ [.wrote] })
  | .writeFailed e => .ok { me with ins := me.ins ++ [.writeFailed e] }
  | .lost e => .ok { me with ins := me.ins ++ [.readError e] }
  | .arrive n =>
    if (me.state c).reading then
      match reports c.hw me.got,
          reports c.hw (me.got ++ ((peer.out c).drop me.got.length).take n) with
      | some old, some new => .ok ⟨me.ins ++ new.drop old.length,
          me.got ++ ((peer.out c).drop me.got.length).take n⟩
      | _, _ => .ub
    else .ok me

/-- The two sides. -/
structure Net where
  a : Side := {}
  b : Side := {}

/-- One step: `true` is the first side. -/
def step (c : Conf) (n : Net) : Bool × Act → Cpp Net
  | (true, x) => (act c n.a n.b x).map fun a => { n with a := a }
  | (false, x) => (act c n.b n.a x).map fun b => { n with b := b }

/-- Any history, of any number of steps. -/
def history (c : Conf) (n : Net) : List (Bool × Act) → Cpp Net
  | [] => .ok n
  | x :: xs => (step c n x).bind fun n => history c n xs

/-- The conversation of two new endpoints. -/
def talk (c : Conf) (xs : List (Bool × Act)) : Cpp Net := history c {} xs

end Nbdl.Link
