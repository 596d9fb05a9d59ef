import Verif.Common
/-!
# The endpoint of the browser

Models `/repo/include/nbdl/websocket_api/detail/endpoint_impl.hpp` (lines 31–231),
`detail/convert_payload.hpp` (lines 21–79), `client_endpoint.hpp` (lines 18–33): an endpoint whose
connection is a `WebSocket` object of the browser, for JSON payloads and for byte vectors.

The browser is modelled as the WHATWG WebSocket standard says: `send` throws while the connection is
being opened and does nothing once it is closing; `message` is only reported while it is open;
`close` is reported once, at the end.  An event that cannot happen in a state changes nothing.

Simplifications.
* `JSON.parse` and `JSON.stringify` are parameters.
* A handler's own calls of `send_message` and `send_close` come after it, as further actions.
* The handler has all three functions (otherwise it does not compile).
-/
namespace Nbdl.WsApi

/-- Text of JavaScript: UTF-16 code units. -/
abbrev JsText := List (BitVec 16)

/-- `event.data` (endpoint_impl.hpp:132): a text or an `ArrayBuffer`. -/
inductive Data
  | text (t : JsText)
  | buffer (b : List Byte)
deriving DecidableEq

/-- `JSON.parse` (`none`: it throws) and `JSON.stringify`. -/
structure Json (J : Type) where
  parse : JsText → Option J
  stringify : J → JsText

/-! ## Connecting -/

/-- `client_endpoint_base`, fwd/websocket_api/client_endpoint.hpp:22-28. -/
structure Client where
  url : JsText
  authToken : JsText
  origin : JsText

/-- `connect`, endpoint_impl.hpp:54, 110-117: the arguments of `new WebSocket`. -/
def connect (c : Client) : List JsText := [c.url]

/-! ## The endpoint with JSON payloads -/

/-- `readyState` of the browser's `WebSocket`. -/
inductive Ready
  | connecting | «open» | closing | closed
deriving DecidableEq

/-- The member variables that matter, endpoint_impl.hpp:75-80; `alive`: the object exists. -/
structure St where
  ready : Ready
  alive : Bool
deriving DecidableEq

/-- After the constructor, endpoint_impl.hpp:44-55. -/
def St.init : St := ⟨.connecting, true⟩

/-- What happens: events of the browser, calls by the user. -/
inductive Act (J : Type)
  | opened
  | message (d : Data)
  | closed (code : Nat)
  | send (j : J)
  | close
  | destroy

/-- What can be seen: calls of the handler, texts sent to the server, exceptions. -/
inductive Out (J : Type)
  | onReady
  | onMessage (j : J)
  | onClose
  | sent (t : JsText)
  | threw
deriving DecidableEq

variable {J : Type}

/-- `convert_payload<json_payload>::apply`, convert_payload.hpp:58-79. -/
def convertJson (js : Json J) : Data → Option J
  | .text t => js.parse t
  | .buffer _ => none

/-- One action.  The listeners are never removed (119-144): an event after the endpoint was destroyed
uses it nevertheless. -/
def step (js : Json J) (s : St) : Act J → Cpp (St × List (Out J))
  -- 119-122, 186-190
  | .opened =>
    if s.ready = .connecting then
      if s.alive then .ok ({ s with ready := .open }, [.onReady]) else .ub
    else .ok (s, [])
  -- 128-135, 192-197
  | .message d =>
    if s.ready = .open then
      if s.alive then
        match convertJson js d with
        | some j => .ok (s, [.onMessage j])
        | none => .ok (s, [.threw])
      else .ub
    else .ok (s, [])
  -- 137-144, 199-203
  | .closed _ =>
    if s.ready = .closed then .ok (s, [])
    else if s.alive then .ok ({ s with ready := .closed }, [.onClose]) else .ub
  -- 168-173, 205-218
  | .send j =>
    if s.alive then
      match s.ready with
      | .connecting => .ok (s, [.threw])
      | .open => .ok (s, [.sent (js.stringify j)])
      | _ => .ok (s, [])
    else .ok (s, [])
  -- 175-184
  | .close =>
    if s.alive then
      match s.ready with
      | .closed => .ok (s, [])
      | _ => .ok ({ s with ready := .closing }, [])
    else .ok (s, [])
  -- no destructor is declared
  | .destroy => .ok ({ s with alive := false }, [])

/-- A history. -/
def run (js : Json J) (s : St) : List (Act J) → Cpp (List (Out J))
  | [] => .ok []
  | a :: as => (step js s a).bind fun (s, o) => (run js s as).map (o ++ ·)

/-! ## Payloads of bytes -/

/-- A typed array of JavaScript: a part of a buffer. -/
structure View where
  buffer : List Byte
  start : Nat
  stop : Nat

/-- `HEAPU8.subarray(a, b)` -/
def subarray (heap : List Byte) (a b : Nat) : View := ⟨heap, a, b⟩

/-- `send_impl` for vectors, endpoint_impl.hpp:219-229: what is sent.  `heap` is the memory of the
program, the vector's bytes are at `data`. -/
def sendBytes (heap : List Byte) (data size : Nat) : List Byte := (subarray heap data size).buffer

/-- A vector: its elements and the size of its allocation. -/
structure Vec where
  elems : List Byte
  capacity : Nat

/-- `std::vector::resize` (libc++ doubles the allocation). -/
def Vec.resize (v : Vec) (n : Nat) : Vec :=
  ⟨v.elems.take n ++ List.replicate (n - v.elems.length) 0,
    if n ≤ v.capacity then v.capacity else max n (2 * v.capacity)⟩

/-- `std::vector::clear` -/
def Vec.clear (v : Vec) : Vec := ⟨[], v.capacity⟩

/-- `.length`, as an `int`: an `ArrayBuffer` has none. -/
def Data.length : Data → Nat
  | .text t => t.length
  | .buffer _ => 0

/-- `convert_payload<std::vector>::apply`, convert_payload.hpp:24-56.  `stringToAscii` writes the units
and a zero at the end; nothing is written for a buffer (`set` of an object without `length`). -/
def convertBytes (d : Data) (p : Vec) : Cpp Vec :=
  let v := (p.resize d.length).clear
  match d with
  | .text t => if t.length + 1 ≤ v.capacity then .ok v else .ub
  | .buffer _ => .ok v

/-- The payloads the handler gets for some messages, endpoint_impl.hpp:192-197. -/
def receiveBytes (p : Vec) : List Data → Cpp (List (List Byte))
  | [] => .ok []
  | d :: ds => (convertBytes d p).bind fun v => (receiveBytes v ds).map (v.elems :: ·)

end Nbdl.WsApi
