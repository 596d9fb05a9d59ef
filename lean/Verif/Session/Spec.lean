import Verif.Session.Model

/-! What the statements about sessions are about. -/

namespace Nbdl.Session
open Nbdl.Link (Act)

/-- What was to happen at the endpoints, in order. -/
def acts : List Ev → List (Bool × Act)
  | [] => []
  | .act w x :: es => (w, x) :: acts es
  | _ :: es => acts es

/-- Calls of `send_message`, `send_close` and `stop`. -/
def isCall : Bool × Act → Bool
  | (_, .send _) | (_, .close) | (_, .stop) => true
  | _ => false

/-- The messages a user sent, in order. -/
def sends (w : Bool) : List (Bool × Act) → List Link.Msg
  | [] => []
  | (v, .send m) :: xs => if v = w then m :: sends w xs else sends w xs
  | _ :: xs => sends w xs

/-- What the handshake told a user. -/
def news (l : List Told) : List Told := l.filter fun t => t ≠ .stopped

/-- An origin and a token that fit the lines of the request, see C16. -/
structure Polite (k : Conf) : Prop where
  origin : 10#8 ∉ k.origin
  token : 10#8 ∉ k.token
  semicolon : 59#8 ∉ k.token
  short : k.origin.length ≤ 247 ∧ k.token.length ≤ 234
  op : k.link.op = Ws.opText ∨ k.link.op = Ws.opBinary

end Nbdl.Session
