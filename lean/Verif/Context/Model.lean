import Verif.MapStore.Model
/-!
# The context

Models `/repo/include/nbdl/context.hpp`, `/repo/include/nbdl/context_store.hpp` and
`/repo/include/nbdl/null_store.hpp`.

Path types, actors and stores are tuple/map indices in C++; here they are numbers.  All stores have
the same Lean type `S`, with operations that depend on the path type.  What the actors observe is
recorded in a trace; every event carries the stores as they are when the actor is called.
Simplification: actors do not push further messages while they are being called; see `Verif.Nested` for
actors that do.
-/
namespace Nbdl.Context
open MapStore (Msg View Payload)

/-- The operations of a store. -/
structure StoreOps (S P V : Type) where
  /-- `nbdl::apply_message` has the static type `hana::false_` for this message -/
  never : Msg P V → Bool
  /-- `nbdl::apply_message` -/
  apply : S → Msg P V → S × Bool
  /-- `nbdl::match` -/
  view : S → P → View V
  /-- `nbdl::apply_foreign_message` for a message of another path type: the new store and the paths
  marked as modified.  Simplification: they are marked after the store has been modified. -/
  foreign : S → Nat → Msg P V → S × List P

/-- What an actor is. -/
structure Actor where
  producer : Bool
  consumer : Bool
  stateConsumer : Bool
  deriving DecidableEq, Repr

/-- `ContextMeta`, context.hpp:91-96 -/
structure Config (S P V : Type) where
  actors : List Actor
  /-- `ProducerLookup` -/
  producerOf : Nat → Nat
  /-- `ListenerLookup` -/
  listeners : Nat → List Nat
  ops : Nat → StoreOps S P V

/-- What an actor observes. -/
inductive Event (S P V : Type) where
  /-- `notify_state_change(actor, path)` -/
  | notify (actor t : Nat) (p : P) (seen : Nat → S)
  /-- `send_upstream_message(actor, m)` -/
  | up (actor t : Nat) (m : Msg P V) (seen : Nat → S)
  /-- `send_downstream_message(actor, m)` -/
  | down (actor t : Nat) (m : Msg P V) (seen : Nat → S)

variable {S P V : Type}

/-- The stores at the time of an event. -/
def Event.seen : Event S P V → Nat → S
  | .notify _ _ _ s | .up _ _ _ s | .down _ _ _ s => s

/-- Indices of the actors with a property, in order: `hana::for_each` with `if constexpr`. -/
def indices (f : Actor → Bool) (actors : List Actor) : List Nat :=
  (actors.zipIdx.filter (fun x => f x.1)).map (·.2)

/-- `propagate_upstream`, context.hpp:115-125 -/
def propagateUpstream (c : Config S P V) (st : Nat → S) (t : Nat) (m : Msg P V) : List (Event S P V) :=
  [.up (c.producerOf t) t m st]

/-- `propagate_downstream`, context.hpp:127-138 -/
def propagateDownstream (c : Config S P V) (st : Nat → S) (t : Nat) (m : Msg P V) : List (Event S P V) :=
  (indices Actor.consumer c.actors).map fun a => .down a t m st

/-- `notify_state_consumers`, context.hpp:140-150 -/
def notifyStateConsumers (c : Config S P V) (st : Nat → S) (t : Nat) (p : P) : List (Event S P V) :=
  (indices Actor.stateConsumer c.actors).map fun a => .notify a t p st

def setStore (st : Nat → S) (t : Nat) (s : S) : Nat → S := fun u => if u = t then s else st u

/-- The loop over the listeners, context.hpp:218-235 -/
def applyListeners (c : Config S P V) (t : Nat) (m : Msg P V) :
    List Nat → (Nat → S) → (Nat → S) × List (Event S P V)
  | [], st => (st, [])
  | l :: ls, st =>
    let r := (c.ops l).foreign (st l) t m
    let st' := setStore st l r.1
    let rest := applyListeners c t m ls st'
    (rest.1, r.2.flatMap (notifyStateConsumers c st' l) ++ rest.2)

/-- `push_message` of a message with a complete path, context.hpp:156-236, up to the listeners. -/
def pushMain (c : Config S P V) (st : Nat → S) (t : Nat) (m : Msg P V) :
    (Nat → S) × List (Event S P V) :=
  if m.isUpRead then
    -- 162-192
    let st' := setStore st t ((c.ops t).apply (st t) m).1
    (st', match (c.ops t).view (st' t) m.path with
      | .triggerRead => propagateUpstream c st' t m
      | .unresolved => []
      | .value w => propagateDownstream c st' t (.downRead m.path w)
      -- any other tag is taken for a value by the generic overload (182-190); simplification: it is
      -- shown as `not_found`, a map store never gets here
      | .notInSet => propagateDownstream c st' t (.downRead m.path .notFound))
  else
    -- 195-205: not called if it is statically false
    let r := if (c.ops t).never m then (st t, false) else (c.ops t).apply (st t) m
    let st' := setStore st t r.1
    (st', (if r.2 then notifyStateConsumers c st' t m.path else [])
      ++ (if m.isUpstream then propagateUpstream c st' t m else propagateDownstream c st' t m))

/-- `push_message`, context.hpp:156-236 -/
def push (c : Config S P V) (st : Nat → S) (t : Nat) (m : Msg P V) : (Nat → S) × List (Event S P V) :=
  let r := pushMain c st t m
  let f := applyListeners c t m (c.listeners t) r.1
  (f.1, r.2 ++ f.2)

/-- `push_message` of an upstream message whose path has no key yet, context.hpp:238-243 -/
def pushIncomplete (c : Config S P V) (st : Nat → S) (t : Nat) (m : Msg P V) :
    (Nat → S) × List (Event S P V) :=
  (st, propagateUpstream c st t m)

/-- A history of pushes. -/
def pushAll (c : Config S P V) (st : Nat → S) : List (Nat × Msg P V) → (Nat → S) × List (Event S P V)
  | [] => (st, [])
  | (t, m) :: h =>
    let r := push c st t m
    let rest := pushAll c r.1 h
    (rest.1, r.2 ++ rest.2)

/-- `match` on the context, context.hpp:306-336: the value handed to the caller. -/
def matchCtx (c : Config S P V) (st : Nat → S) (t : Nat) (p : P) :
    (Nat → S) × List (Event S P V) × View V :=
  match (c.ops t).view (st t) p with
  | .triggerRead =>
    let r := push c st t (.upRead p)
    (r.1, r.2, .unresolved)
  | v => (st, [], v)

/-! ## Construction -/

inductive Init where
  | producer (actor : Nat)
  | consumer (actor : Nat)
  deriving DecidableEq, Repr

/-- `init_actors`, context.hpp:44-64 -/
def initActors (actors : List Actor) : List Init :=
  (actors.zipIdx.flatMap fun (a, i) => if a.producer then [.producer i] else [])
    ++ (actors.zipIdx.flatMap fun (a, i) => if a.consumer then [.consumer i] else [])

/-! ## Stores -/

/-- The map store as a store of a context; it takes no part in foreign messages (the default,
apply_foreign_message.hpp:29-35). -/
def mapOps [DecidableEq P] : StoreOps (MapStore.Map P V) P V where
  never m := m.isUpstream
  apply := MapStore.apply
  view := MapStore.view
  foreign s _ _ := (s, [])

/-- `context_store`, context_store.hpp:46-103, holding a value that updates are assigned to
(apply_action.hpp:53-68): only downstream updates are applied. -/
def contextStoreOps : StoreOps (Payload V) P V where
  never | .downUpdate _ _ => false | _ => true
  apply s | .downUpdate _ w => (w, true) | _ => (s, false)
  view s _ := .value s
  foreign s _ _ := (s, [])

/-- `null_store`, null_store.hpp:20-47: ignores everything.  (It cannot be matched; the program
does not compile.) -/
def nullOps : StoreOps Unit P V where
  never _ := true
  apply s _ := (s, false)
  view _ _ := .notInSet
  foreign s _ _ := (s, [])

end Nbdl.Context
