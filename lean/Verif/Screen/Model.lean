import Verif.Replica.Model
import Verif.Dom.Model
/-!
# The page of a client of a server

Joins the model of a server and its clients (`Verif.Replica`) to that of pages (`Verif.Dom`): an actor of each client's
context is a renderer (`/repo/include/nbdl/webui/renderer.hpp`), which updates the whole page whenever the context
notifies it (`notify_state_change`, renderer.hpp:179-187).

Simplifications.  Those of `Verif.Replica`; in particular actors push nothing while they are being called (see
`Verif.Page` for a context in which they do).  The page is rendered into an element when the client joins, with stores
in which there is nothing yet (a renderer cannot do so itself when the context makes it, C125).
-/
namespace Nbdl.Screen
open MapStore (Msg Map)
open Context (push matchCtx)
open Replica
variable {P V : Type} [DecidableEq P]

/-- What the context of client `i` makes its actors observe in one step: of the messages it reads
(context_endpoint.hpp:31-37) and of what its program does (context.hpp:156-243, 306-336). -/
def events (u : Setup P V) (i : Nat) (s : Sys P V) : Step P V → List (Context.Event (Map P V) P V)
  | .deliver j =>
    if j = i then
      match s.clients[i]? with
      | some ⟨st, (t, m) :: _, _, _⟩ => (push u.client st t m).2
      | _ => []
    else []
  | .act j t m =>
    if j = i then
      match s.clients[i]? with
      | some c => (push u.client c.stores t m).2
      | none => []
    else []
  | .look j t p =>
    if j = i then
      match s.clients[i]? with
      | some c => (matchCtx u.client c.stores t p).2.1
      | none => []
    else []
  | _ => []

/-- The stores as actor `b` finds them when it is notified (context.hpp:140-150), in order. -/
def notified (b : Nat) (es : List (Context.Event (Map P V) P V)) : List (Stores P V) :=
  es.filterMap fun e => match e with
    | .notify a _ _ st => if a = b then some st else none
    | _ => none

/-- The stores as the renderer, actor `b` of client `i`, finds them in the course of a history. -/
def found (u : Setup P V) (b i : Nat) : Sys P V → List (Step P V) → List (Stores P V)
  | _, [] => []
  | s, x :: h => notified b (events u i s x) ++ found u b i (step u s x) h

/-- The document of client `i` after a history since it joined (renderer.hpp:110-118, 120-145, 179-187). -/
def screen (u : Setup P V) (b i : Nat) (x : Dom.Item (Stores P V)) (el : Nat) (doc : Dom.Dom) (s : Sys P V)
    (h : List (Step P V)) : Except Dom.Fault (Dom.Dom × List (Dom.Inst (Stores P V))) :=
  (Dom.render fresh doc el x).bind fun r => Dom.updates r.1 r.2 (found u b i s h)

end Nbdl.Screen
