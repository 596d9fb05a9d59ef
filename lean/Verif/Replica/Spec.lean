import Verif.Replica.Model
/-! The words of the statements about a server and its clients. -/
namespace Nbdl.Replica.Spec
open MapStore (Msg Map Payload View)
variable {P V : Type} [DecidableEq P]

/-- The value a program finds at a path: an entity, `not_found`, or nothing yet. -/
def shows (st : Stores P V) (t : Nat) (p : P) : Option (Payload V) :=
  match MapStore.view (st t) p with
  | .value w => some w
  | _ => none

/-- All the stores are map stores, and the actor is a consumer of the server's context. -/
structure Legal (u : Setup P V) : Prop where
  serverStores : ∀ t, u.server.ops t = Context.mapOps
  clientStores : ∀ t, u.client.ops t = Context.mapOps
  serverIsConsumer : ((u.server.actors[u.serverActor]?.map Context.Actor.consumer).getD false) = true

/-- The programs of clients apply upstream messages only: they ask, they do not answer. -/
def asksOnly : Step P V → Bool
  | .act _ _ m => m.isUpstream
  | _ => true

/-- A step in which the server is told the outcome of something. -/
def isProduce : Step P V → Bool
  | .produce _ _ => true
  | _ => false

/-- The outcome of a create, an update or a delete of this path. -/
def settles (t : Nat) (p : P) : Step P V → Prop
  | .produce t' (.downCreate p' _) => t' = t ∧ p' = p
  | .produce t' (.downUpdate p' _) => t' = t ∧ p' = p
  | .produce t' (.downDelete p') => t' = t ∧ p' = p
  | _ => False

/-- No answer to a read comes after the value it was asked about has been replaced: whenever the
server is given one, it shows nothing there or just that. -/
def NoLateAnswers (u : Setup P V) (h : List (Step P V)) : Prop :=
  ∀ pre t p w post, h = pre ++ .produce t (.downRead p w) :: post →
    ∀ w', shows (run u start pre).server t p = some w' → w' = w

/-- The creates, updates and deletes which the program of client `i` asks for, of the paths whose
producer is the connection to the server. -/
def asked (u : Setup P V) (i : Nat) : List (Step P V) → List (Wire P V)
  | [] => []
  | .act j t m :: h =>
    if j = i ∧ u.client.producerOf t = u.clientActor ∧
        (match m with | .upCreate _ _ | .upUpdate _ _ | .upDelete _ => true | _ => false) = true
    then (t, m) :: asked u i h else asked u i h
  | _ :: h => asked u i h

/-- What the server's context tells its producers while the server reads the messages of client `i`:
the actor, and the message. -/
def forwarded (u : Setup P V) (i : Nat) : Sys P V → List (Step P V) → List (Nat × Wire P V)
  | _, [] => []
  | s, x :: h =>
    (match x with
      | .serve j =>
        if j = i then
          match (s.clients[i]?.map (·.outbox)).getD [] with
          | (t, m) :: _ => Context.sentUp (Context.push u.server s.server t m).2
          | [] => []
        else []
      | _ => []) ++ forwarded u i (step u s x) h

/-- The history up to `n` steps after a client has joined; it is the client number
`(run u start pre).clients.length`. -/
def afterJoin (pre post : List (Step P V)) (n : Nat) : List (Step P V) := pre ++ .join :: post.take n

end Nbdl.Replica.Spec
