import Verif.Context.Model
/-!
# Actors that use the context while it is calling them

`Verif.Context` takes `push_message` as one step.  In `/repo/include/nbdl/context.hpp` it is not: the
actors are called in the middle of it (lines 115–150), and what they hold is a handle of the very context
that is calling them (lines 66–80, 98–102), so that they may push and match in turn, as
`/repo/include/nbdl/echo_producer.hpp` lines 64–88 does.  Here a context is a machine whose steps are the
pieces of `push_message` between the calls; the tasks are what is left to do of all functions that have
been called and have not returned (the call stack), the innermost first.

Simplifications.
* The variables of all actors and of the program are one value of type `A`.
* What an actor does when it is called is a `Prog`, which ends unless it calls the context; C++ that loops
  by itself, throws, or blocks is not covered.  Calls to the context may be nested without end; then the
  machine never comes to rest (in C++ the stack overflows).
* `apply_foreign_message` first modifies the store and then marks paths, see `Context.StoreOps.foreign`.
* The stores themselves do not push.
-/
namespace Nbdl.Nested
open MapStore (Msg View Payload)
open Context (Config Actor StoreOps Event setStore pushMain)

/-- A call of an actor by the context, context.hpp:124, 135, 147. -/
inductive Call (P V : Type) where
  /-- `notify_state_change(actor, path)` -/
  | notify (actor t : Nat) (p : P)
  /-- `send_upstream_message(actor, m)` -/
  | up (actor t : Nat) (m : Msg P V)
  /-- `send_downstream_message(actor, m)` -/
  | down (actor t : Nat) (m : Msg P V)
  deriving DecidableEq, Repr

/-- The call an event of `Verif.Context` stands for. -/
def callOf {S P V : Type} : Event S P V → Call P V
  | .notify a t p _ => .notify a t p
  | .up a t m _ => .up a t m
  | .down a t m _ => .down a t m

/-- What a program, or an actor that is called, does with the context. -/
inductive Prog (A P V : Type) where
  | done
  /-- reads the variables -/
  | get (k : A → Prog A P V)
  /-- writes the variables -/
  | put (a : A) (k : Prog A P V)
  /-- `nbdl::apply_message(context, m)` with a message whose path is complete -/
  | push (t : Nat) (m : Msg P V) (k : Prog A P V)
  /-- `nbdl::apply_message(context, m)` with an upstream message whose path has no key yet -/
  | submit (t : Nat) (m : Msg P V) (k : Prog A P V)
  /-- `nbdl::match(context, path, fn)`, what `fn` does with the value and what is done afterwards -/
  | look (t : Nat) (p : P) (k : View V → Prog A P V)

/-- The actors: what each does when it is called. -/
abbrev Code (A P V : Type) := Call P V → Prog A P V

/-- What is left to do.  `i` numbers the pushes in the order in which they are begun; `src` is the
listening store a notification is for, `none` for the calls of the message itself. -/
inductive Task (A P V : Type) where
  | prog (q : Prog A P V)
  | push (t : Nat) (m : Msg P V)
  | submit (t : Nat) (m : Msg P V)
  | call (i : Nat) (src : Option Nat) (c : Call P V)
  | listen (i l t : Nat) (m : Msg P V)

/-- What has happened. -/
inductive Entry (S P V : Type) where
  /-- a message was pushed; the stores before it was applied -/
  | pushed (i t : Nat) (m : Msg P V) (before : Nat → S)
  /-- a message without a complete path was pushed -/
  | submitted (i t : Nat) (m : Msg P V)
  /-- a listening store `l` was shown the message; the stores before -/
  | heard (i l t : Nat) (m : Msg P V) (before : Nat → S)
  /-- an actor was called; the stores as it finds them -/
  | called (i : Nat) (src : Option Nat) (c : Call P V) (seen : Nat → S)

/-- The context, the variables of its actors, and its history. -/
structure World (A S P V : Type) where
  stores : Nat → S
  vars : A
  /-- the number of the next push -/
  next : Nat
  log : List (Entry S P V)

/-- The context and what is left to do. -/
structure State (A S P V : Type) where
  world : World A S P V
  tasks : List (Task A P V)

variable {A S P V : Type}

/-- The calls `push_message` makes for the message itself, context.hpp:156-215. -/
def mainCalls (c : Config S P V) (st : Nat → S) (t : Nat) (m : Msg P V) : List (Call P V) :=
  (pushMain c st t m).2.map callOf

/-- The notifications of a path, context.hpp:140-150. -/
def notifyCalls (c : Config S P V) (t : Nat) (p : P) : List (Call P V) :=
  (Context.indices Actor.stateConsumer c.actors).map fun a => .notify a t p

/-- One task up to the next call: the new world and what is to be done first. -/
def exec (c : Config S P V) (code : Code A P V) (w : World A S P V) :
    Task A P V → World A S P V × List (Task A P V)
  | .prog .done => (w, [])
  | .prog (.get k) => (w, [.prog (k w.vars)])
  | .prog (.put a k) => ({ w with vars := a }, [.prog k])
  | .prog (.push t m k) => (w, [.push t m, .prog k])
  | .prog (.submit t m k) => (w, [.submit t m, .prog k])
  -- `match` on the context, context.hpp:306-336, through a handle 371-381
  | .prog (.look t p k) =>
    match (c.ops t).view (w.stores t) p with
    | .triggerRead => (w, [.push t (.upRead p), .prog (k .unresolved)])
    | v => (w, [.prog (k v)])
  -- `push_message`, context.hpp:156-236: the message is applied and matched, then the actors are called
  -- one after the other, then the listening stores are shown the message
  | .push t m =>
    ({ w with
      stores := (pushMain c w.stores t m).1
      next := w.next + 1
      log := w.log ++ [.pushed w.next t m w.stores] },
      (mainCalls c w.stores t m).map (.call w.next none) ++ (c.listeners t).map (.listen w.next · t m))
  -- context.hpp:238-243
  | .submit t m =>
    ({ w with next := w.next + 1, log := w.log ++ [.submitted w.next t m] },
      [.call w.next none (.up (c.producerOf t) t m)])
  | .call i src a => ({ w with log := w.log ++ [.called i src a w.stores] }, [.prog (code a)])
  -- context.hpp:219-235
  | .listen i l t m =>
    ({ w with
      stores := setStore w.stores l ((c.ops l).foreign (w.stores l) t m).1
      log := w.log ++ [.heard i l t m w.stores] },
      (((c.ops l).foreign (w.stores l) t m).2.flatMap (notifyCalls c l)).map (.call i (some l)))

/-- One step. -/
def step (c : Config S P V) (code : Code A P V) (s : State A S P V) : State A S P V :=
  match s.tasks with
  | [] => s
  | x :: r => ⟨(exec c code s.world x).1, (exec c code s.world x).2 ++ r⟩

/-- Steps. -/
def run (c : Config S P V) (code : Code A P V) : Nat → State A S P V → State A S P V
  | 0, s => s
  | n + 1, s => run c code n (step c code s)

/-- A program that is about to use a context. -/
def start (st : Nat → S) (a : A) (q : Prog A P V) : State A S P V := ⟨⟨st, a, 0, []⟩, [.prog q]⟩

/-! ## The echo producer -/

/-- `to_downstream`, message.hpp:130-145, 221-232, 253-263; a read has none, the program does not
compile. -/
def toDown : Msg P V → Option (Msg P V)
  | .upCreate p v => some (.downCreate p (.value v))
  | .upUpdate p v => some (.downUpdate p (.value v))
  | .upDelete p => some (.downDelete p)
  | _ => none

/-- `send_upstream_message` of the echo producer, echo_producer.hpp:64-88, for messages with a complete
path. -/
def echo : Code A P V
  | .up _ t m => match toDown m with
    | some d => .push t d .done
    | none => .done
  | _ => .done

end Nbdl.Nested
