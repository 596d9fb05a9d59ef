import Verif.Common
/-!
# Event handlers of a page

Models `/repo/include/nbdl/webui/detail/event_receiver.hpp` (lines 42–124),
`webui/detail/dom_event_listener.hpp` (lines 19–70), and how `webui/detail/dom_manips.hpp` (lines
444–471, 640–666) makes and destroys the listeners: those of elements outside of loops are made once,
those of the elements of a loop are destroyed and made anew whenever the page is updated.

A listener owns a slot for the event (`vals->event_data`) and its own copy of the store, which the
`send` passed to the handler refers to (event_receiver.hpp:62-68).

Simplifications.
* One loop over a container; `n` elements, one listener each.
* A handler is seen as the sequence of what it does: look at the event (a parameter bound to
  `html::event_data`), send a message (which changes the store and so updates the page), let the
  browser dispatch another event at once (`element.click()`), return.  Other parameters, which refer
  into the store, are left out.
* The browser calls the handlers that are registered, and no others.
* Program outside of handlers changes the state (a message from the network) only when no handler is
  running, as JavaScript runs one task at a time.
-/
namespace Nbdl.Events

/-- A listener: outside of the loop, or of an element of the loop as it was made by the `gen`-th
update. -/
inductive Listener
  | fixed (i : Nat)
  | item (gen i : Nat)
deriving DecidableEq

/-- How a history names a listener that is there now. -/
inductive Target
  | fixed (i : Nat)
  | item (i : Nat)
deriving DecidableEq

variable (Ev : Type)

/-- The listeners which exist, the slots of the events, and the handlers running, the innermost
first, each with the event it was called for. -/
structure St where
  fixed : Nat
  gen : Nat
  items : Nat
  slot : Listener → Option Ev
  stack : List (Listener × Ev)

/-- What happens. -/
inductive Act
  | event (t : Target) (e : Ev)
  | look
  | send (n : Nat)
  | ret
  | update (n : Nat)

variable {Ev}

/-- A page as it is first rendered. -/
def St.init (fixed items : Nat) : St Ev := ⟨fixed, 0, items, fun _ => none, []⟩

/-- The listener exists. -/
def St.exists (s : St Ev) : Listener → Bool
  | .fixed i => decide (i < s.fixed)
  | .item g i => decide (g = s.gen ∧ i < s.items)

/-- The listener registered with the browser for an element. -/
def St.target (s : St Ev) : Target → Listener
  | .fixed i => .fixed i
  | .item i => .item s.gen i

/-- `update()` of the page: dom_manips.hpp:469-470 (nothing) and 640-666 (the renderers of the loop and
with them their listeners are destroyed, `n` new ones are made). -/
def St.update (s : St Ev) (n : Nat) : St Ev := { s with gen := s.gen + 1, items := n }

/-- One action, and what a handler looking at its event sees. -/
def step (s : St Ev) : Act Ev → Cpp (St Ev × List (Option Ev))
  -- event_receiver.hpp:83-105, 119-123: the event is put into the slot, then `receive_event` is called
  | .event t e =>
    if s.exists (s.target t) then
      .ok ({ s with slot := fun l => if l = s.target t then some e else s.slot l
                    stack := (s.target t, e) :: s.stack }, [])
    else .ok (s, [])
  -- event_receiver.hpp:61, 70-74: the parameter is a reference to the slot
  | .look =>
    match s.stack with
    | [] => .ok (s, [])
    | (l, _) :: _ => if s.exists l then .ok (s, [s.slot l]) else .ub
  -- event_receiver.hpp:62-68
  | .send n =>
    match s.stack with
    | [] => .ok (s, [])
    | (l, _) :: _ => if s.exists l then .ok (s.update n, []) else .ub
  | .ret => .ok ({ s with stack := s.stack.tail }, [])
  | .update n => if s.stack = [] then .ok (s.update n, []) else .ok (s, [])

/-- A history: everything handlers see when they look at their event. -/
def run (s : St Ev) : List (Act Ev) → Cpp (List (Option Ev))
  | [] => .ok []
  | a :: as => (step s a).bind fun (s, o) => (run s as).map (o ++ ·)

/-! `St.stack = []` has to be decidable without comparing events. -/
instance (l : List (Listener × Ev)) : Decidable (l = []) :=
  match l with
  | [] => .isTrue rfl
  | _ :: _ => .isFalse (by simp)

end Nbdl.Events
