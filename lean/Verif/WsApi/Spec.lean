import Verif.WsApi.Model
/-! # What the browser's endpoint should do -/
namespace Nbdl.WsApi.Spec
open Nbdl.WsApi

variable {J : Type}

/-- The state of the connection, from what happened to it. -/
def after : Ready → List (Act J) → Ready
  | r, [] => r
  | r, a :: as =>
    after (match r, a with
      | .connecting, .opened => .open
      | .connecting, .close => .closing
      | .open, .close => .closing
      | .closed, _ => .closed
      | _, .closed _ => .closed
      | r, _ => r) as

/-- What should be seen of the action `a` after the history `h`. -/
def shown (js : Json J) (h : List (Act J)) (a : Act J) : List (Out J) :=
  match after .connecting h, a with
  | .connecting, .opened => [.onReady]
  | .open, .message d =>
    match d with
    | .text t => ((js.parse t).map fun j => [Out.onMessage j]).getD [.threw]
    | .buffer _ => [.threw]
  | .closed, .closed _ => []
  | _, .closed _ => [.onClose]
  | .connecting, .send _ => [.threw]
  | .open, .send j => [.sent (js.stringify j)]
  | _, _ => []

/-- What should be seen of a whole history. -/
def seen (js : Json J) (h : List (Act J)) : List (Act J) → List (Out J)
  | [] => []
  | a :: as => shown js h a ++ seen js (h ++ [a]) as

/-- The endpoint is destroyed, if at all, only when the connection is closed. -/
def keeps : Ready → List (Act J) → Prop
  | _, [] => True
  | r, a :: as => (match a with | .destroy => r = .closed | _ => True) ∧ keeps (after r [a]) as

end Nbdl.WsApi.Spec
