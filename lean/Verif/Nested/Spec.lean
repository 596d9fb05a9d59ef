import Verif.Nested.Model
import Verif.Context.Props
/-! What a user relies on when actors use the context while it is calling them. -/
namespace Nbdl.Nested.Spec
open MapStore (Msg View Payload)
open Context (Config Actor StoreOps actorsWith towardsProducer)
variable {A S P V : Type}

/-- The calls made for the message of push `i` itself, in order. -/
def callsFor (i : Nat) (log : List (Entry S P V)) : List (Call P V) :=
  log.filterMap fun e => match e with
    | .called j none a _ => if j = i then some a else none
    | _ => none

/-- The listening stores that were shown the message of push `i`, in order. -/
def shownFor (i : Nat) (log : List (Entry S P V)) : List (Nat × Nat × Msg P V) :=
  log.filterMap fun e => match e with
    | .heard j l t m _ => if j = i then some (l, t, m) else none
    | _ => none

/-- The calls made because store `l` was shown the message of push `i`, in order. -/
def callsFrom (i l : Nat) (log : List (Entry S P V)) : List (Call P V) :=
  log.filterMap fun e => match e with
    | .called j (some l') a _ => if j = i ∧ l' = l then some a else none
    | _ => none

/-- The messages pushed, in the order in which they reached the stores. -/
def pushes (log : List (Entry S P V)) : List (Nat × Msg P V) :=
  log.filterMap fun e => match e with
    | .pushed _ t m _ => some (t, m)
    | _ => none

/-- The calls a message that is not a read request should lead to: if the store reports a change the
state consumers are told of the path, and then the message goes to the producer or to the consumers. -/
def writeCalls (c : Config S P V) (changed : Bool) (t : Nat) (m : Msg P V) : List (Call P V) :=
  (if changed then (actorsWith Actor.stateConsumer c).map fun a => .notify a t m.path else [])
    ++ (if towardsProducer m then [.up (c.producerOf t) t m]
        else (actorsWith Actor.consumer c).map fun a => .down a t m)

/-- The calls a read request should lead to, by what the store shows. -/
def readCalls (c : Config S P V) (t : Nat) (p : P) : View V → List (Call P V)
  | .triggerRead => [.up (c.producerOf t) t (.upRead p)]
  | .unresolved => []
  | .value w => (actorsWith Actor.consumer c).map fun a => .down a t (.downRead p w)
  | .notInSet => (actorsWith Actor.consumer c).map fun a => .down a t (.downRead p .notFound)

/-- The effect of the history on the stores: each message and each hearing, one after the other. -/
def effect (c : Config S P V) (st : Nat → S) : List (Entry S P V) → Nat → S
  | [] => st
  | .pushed _ t m _ :: r => effect c (Context.setStore st t ((c.ops t).apply (st t) m).1) r
  | .heard _ l t m _ :: r => effect c (Context.setStore st l ((c.ops l).foreign (st l) t m).1) r
  | _ :: r => effect c st r

/-- The value a path shows, if any. -/
def shows (c : Config S P V) (st : Nat → S) (t : Nat) (p : P) : Option (Payload V) :=
  match (c.ops t).view (st t) p with
  | .value w => some w
  | _ => none

/-- A store that reports what it changes: a read request changes no value, another message changes at
most the value of its own path, and that only if it says so, and a foreign message changes only the
values of the paths that are marked. -/
structure Honest (o : StoreOps S P V) : Prop where
  read : ∀ s p q w, o.view (o.apply s (.upRead p)).1 q = .value w ↔ o.view s q = .value w
  silent : ∀ s m q w, m.isUpRead = false → ((o.apply s m).2 = false ∨ q ≠ m.path) →
    (o.view (o.apply s m).1 q = .value w ↔ o.view s q = .value w)
  marked : ∀ s t m q w, q ∉ (o.foreign s t m).2 → (o.view (o.foreign s t m).1 q = .value w ↔ o.view s q = .value w)

/-- The stores as actor `a` found them when it was last told of the path. -/
def lastTold [DecidableEq P] (a t : Nat) (p : P) : List (Entry S P V) → Option (Nat → S)
  | [] => none
  | .called _ _ (.notify a' t' p') st :: r =>
    match lastTold a t p r with
    | some st' => some st'
    | none => if a' = a ∧ t' = t ∧ p' = p then some st else none
  | _ :: r => lastTold a t p r

/-- The numbers of the pushes whose messages consumer `a` was sent, in the order in which it got them. -/
def sentTo (a : Nat) (log : List (Entry S P V)) : List Nat :=
  log.filterMap fun e => match e with
    | .called i none (.down b _ _) _ => if b = a then some i else none
    | _ => none

/-- The numbers of the pushes of type `t` that listening store `l` was shown, in that order. -/
def heardBy (l t : Nat) (log : List (Entry S P V)) : List Nat :=
  log.filterMap fun e => match e with
    | .heard i l' t' _ _ => if l' = l ∧ t' = t then some i else none
    | _ => none

/-- Code that pushes nothing: it may look at paths whose store never triggers a read. -/
inductive Quiet (c : Config S P V) : Prog A P V → Prop where
  | done : Quiet c .done
  | get {k} (h : ∀ a, Quiet c (k a)) : Quiet c (.get k)
  | put {a k} (h : Quiet c k) : Quiet c (.put a k)
  | look {t p k} (hv : ∀ s, (c.ops t).view s p ≠ .triggerRead) (h : ∀ v, Quiet c (k v)) : Quiet c (.look t p k)

/-- Code that pushes no message of type `t`. -/
inductive Avoids (c : Config S P V) (t : Nat) : Prog A P V → Prop where
  | done : Avoids c t .done
  | get {k} (h : ∀ a, Avoids c t (k a)) : Avoids c t (.get k)
  | put {a k} (h : Avoids c t k) : Avoids c t (.put a k)
  | push {u m k} (hu : u ≠ t) (h : Avoids c t k) : Avoids c t (.push u m k)
  | submit {u m k} (h : Avoids c t k) : Avoids c t (.submit u m k)
  | look {u p k} (hv : u ≠ t ∨ ∀ s, (c.ops u).view s p ≠ .triggerRead) (h : ∀ v, Avoids c t (k v)) :
      Avoids c t (.look u p k)

/-- Code that pushes only messages of rank less than `n`. -/
inductive Below (c : Config S P V) (rank : Nat → Msg P V → Nat) (n : Nat) : Prog A P V → Prop where
  | done : Below c rank n .done
  | get {k} (h : ∀ a, Below c rank n (k a)) : Below c rank n (.get k)
  | put {a k} (h : Below c rank n k) : Below c rank n (.put a k)
  | push {t m k} (hr : rank t m < n) (h : Below c rank n k) : Below c rank n (.push t m k)
  | submit {t m k} (hr : rank t m < n) (h : Below c rank n k) : Below c rank n (.submit t m k)
  | look {t p k} (hv : rank t (.upRead p) < n ∨ ∀ s, (c.ops t).view s p ≠ .triggerRead)
      (h : ∀ v, Below c rank n (k v)) : Below c rank n (.look t p k)

/-- The calls a message can lead to. -/
def Concerns (c : Config S P V) (t : Nat) (m : Msg P V) : Call P V → Prop
  | .notify _ u p => (u = t ∧ p = m.path) ∨ u ∈ c.listeners t
  | .up _ u m' => u = t ∧ m' = m
  | .down _ u m' => u = t ∧ (m' = m ∨ ∃ p w, m = .upRead p ∧ m' = .downRead p w)

/-- Each message is answered only by messages of smaller rank. -/
def Descending (c : Config S P V) (code : Code A P V) (rank : Nat → Msg P V → Nat) : Prop :=
  ∀ t m a, Concerns c t m a → Below c rank (rank t m) (code a)

/-- The downstream message that carries out a request. -/
inductive CarriesOut : Msg P V → Msg P V → Prop where
  | create (p : P) (v : V) : CarriesOut (.upCreate p v) (.downCreate p (.value v))
  | update (p : P) (v : V) : CarriesOut (.upUpdate p v) (.downUpdate p (.value v))
  | delete (p : P) : CarriesOut (.upDelete p) (.downDelete p)

end Nbdl.Nested.Spec
