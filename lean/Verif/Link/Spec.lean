import Verif.Link.Model
import Verif.Endpoint.Spec

/-!
# Specification of conversations

In terms of what the two users did and were told.
-/

namespace Nbdl.Link
open Nbdl.Endpoint (Obs Note In)

/-- The messages a user handed to `send_message`, in order. -/
def sentBy (c : Conf) (s : Side) : List Msg := Endpoint.Spec.accepted (s.seen c)

/-- The messages a user's handler was called with, in order. -/
def told : List (Obs Msg) → List Msg
  | [] => []
  | .note (.message m) :: t => m :: told t
  | _ :: t => told t

/-- The messages the user of a side was handed. -/
def handedTo (c : Conf) (s : Side) : List Msg := told (s.seen c)

/-- Nothing is on the way from the first side to the second. -/
def Arrived (c : Conf) (s t : Side) : Prop := t.got = s.out c

/-- The side has no write in flight. -/
def Idle (c : Conf) (s : Side) : Prop := Endpoint.Spec.inFlight none (s.seen c) = none

/-- No length is a positive multiple of 125 (see C05). -/
def Fits (m : Msg) : Prop := m = [] ∨ m.length % 125 ≠ 0

/-- The user of the side started it, did not close it before, and never stopped it. -/
def Used (s : Side) : Prop :=
  ∃ is js, s.ins = is ++ .start :: js ∧ In.close ∉ is ∧ In.stop ∉ s.ins

/-- No write fails in the history. -/
def Sound (xs : List (Bool × Act)) : Prop := ∀ w e, (w, Act.writeFailed e) ∉ xs

/-- The connection is not lost in the history. -/
def Connected (xs : List (Bool × Act)) : Prop := ∀ w e, (w, Act.lost e) ∉ xs

/-- Something the network does without the users: the write in flight succeeds, or octets arrive. -/
def Moves (c : Conf) (n : Net) : Bool × Act → Prop
  | (true, .wrote) => ¬ Idle c n.a
  | (false, .wrote) => ¬ Idle c n.b
  | (w, .arrive k) => step c n (w, .arrive k) ≠ .ok n
  | _ => False

/-- A sequence of such things. -/
def Busy (c : Conf) : Net → List (Bool × Act) → Prop
  | _, [] => True
  | n, y :: ys => Moves c n y ∧ ∃ n', step c n y = .ok n' ∧ Busy c n' ys

/-- The network has nothing left to do. -/
def Settled (c : Conf) (n : Net) : Prop := ∀ y, ¬ Moves c n y

end Nbdl.Link
