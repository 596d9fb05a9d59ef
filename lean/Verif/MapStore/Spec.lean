import Verif.MapStore.Model
/-! What an observer should see at a path, stated from the history of the messages alone. -/
namespace Nbdl.MapStore.Spec
variable {P V : Type} [DecidableEq P]

/-- Is the message a delete (that has been carried out)? -/
def isDelete : Msg P V → Bool
  | .downDelete _ => true
  | _ => false

/-- The messages about `p` that came after the last delete of `p`. -/
def since (p : P) (h : List (Msg P V)) : List (Msg P V) :=
  ((h.filter (fun x => x.path = p)).reverse.takeWhile (fun x => !isDelete x)).reverse

/-- The payload of a create or update. -/
def written : Msg P V → Option (Payload V)
  | .downCreate _ w => some w
  | .downUpdate _ w => some w
  | _ => none

/-- The payload of a read answer. -/
def answered : Msg P V → Option (Payload V)
  | .downRead _ w => some w
  | _ => none

/-- What messages without deletes leave: the last create or update; if there is none, the first read
answer; if there is none, whether a read was requested. -/
def result (s : List (Msg P V)) : View V :=
  match s.reverse.findSome? written with
  | some w => .value w
  | none =>
    match s.findSome? answered with
    | some w => .value w
    | none => if s.any Msg.isUpRead then .unresolved else .notInSet

/-- What should be shown at `p` after a history. -/
def shown (p : P) (h : List (Msg P V)) : View V := result (since p h)

end Nbdl.MapStore.Spec
