import Verif.Events.Model
/-! # What handlers should see -/
namespace Nbdl.Events.Spec
open Nbdl.Events

variable {Ev : Type}

/-- A handler that is running: the element it belongs to, the event it was called for, and whether the
page was updated since. -/
structure Frame (Ev : Type) where
  target : Target
  event : Ev
  stale : Bool

/-- The elements there are: outside of the loop and in it. -/
structure Page (Ev : Type) where
  fixed : Nat
  items : Nat
  running : List (Frame Ev)

/-- Is there such an element? -/
def Page.has (p : Page Ev) : Target → Bool
  | .fixed i => decide (i < p.fixed)
  | .item i => decide (i < p.items)

/-- The page is updated. -/
def Page.update (p : Page Ev) (n : Nat) : Page Ev :=
  ⟨p.fixed, n, p.running.map fun f => { f with stale := true }⟩

/-- What happens to the page, and what is seen: a handler sees the event it was called for. -/
def next (p : Page Ev) : Act Ev → Page Ev × List (Option Ev)
  | .event t e => if p.has t then ({ p with running := ⟨t, e, false⟩ :: p.running }, []) else (p, [])
  | .look => (p, (p.running.head?.map fun f => [some f.event]).getD [])
  | .send n => (if p.running.isEmpty then p else p.update n, [])
  | .ret => ({ p with running := p.running.tail }, [])
  | .update n => (if p.running.isEmpty then p.update n else p, [])

/-- What should be seen in a history. -/
def seen (p : Page Ev) : List (Act Ev) → List (Option Ev)
  | [] => []
  | a :: as => (next p a).2 ++ seen (next p a).1 as

/-- The histories for which the code is right: a handler inside the loop does not look at its event nor
send a message after the page was updated, and an event does not reach a handler that is still running
(for an element of the loop: and has not been replaced). -/
def calm (p : Page Ev) : List (Act Ev) → Prop
  | [] => True
  | a :: as =>
    (match a with
      | .event t _ => ∀ f ∈ p.running, f.target = t → ∃ i, t = .item i ∧ f.stale = true
      | .look | .send _ => ∀ f, p.running.head? = some f → ∀ i, f.target = .item i → f.stale = false
      | _ => True) ∧
    calm (next p a).1 as

end Nbdl.Events.Spec
