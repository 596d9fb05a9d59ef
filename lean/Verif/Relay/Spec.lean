import Verif.Relay.Model
/-!
# What a program may say about the messages of a server that echoes
-/
namespace Nbdl.Relay.Spec
open MapStore (Msg Payload)

variable {P V : Type}

/-- What everyone is told when a client asks for something. -/
def told : Req P V → Msg P V
  | .create p v => .downCreate p (.value v)
  | .update p v => .downUpdate p (.value v)
  | .delete p => .downDelete p

/-- What a client has sent, in order. -/
def sent (i : Nat) : List (Step P V) → List (Nat × Req P V)
  | [] => []
  | .send j t r :: h => if j = i then (t, r) :: sent i h else sent i h
  | _ :: h => sent i h

/-- The message the server reads in a step, and whose it is. -/
def taken (s : Sys P V) : Step P V → List (Nat × Wire P V)
  | .serve i =>
    match s[i]? with
    | some ⟨.opened, w :: _, _, _⟩ => [(i, w)]
    | _ => []
  | _ => []

/-- The messages in the order in which the server reads them, and whose they are. -/
def order (s : Sys P V) : List (Step P V) → List (Nat × Wire P V)
  | [] => []
  | x :: h => taken s x ++ order (step s x) h

/-- A request, on a connection. -/
def up (x : Nat × Req P V) : Wire P V := (x.1, x.2.msg)

/-- What is made of a message from upstream when it is confirmed, `told` for messages. -/
def confirmed : Wire P V → Wire P V
  | (t, .upCreate p v) => (t, .downCreate p (.value v))
  | (t, .upUpdate p v) => (t, .downUpdate p (.value v))
  | (t, .upDelete p) => (t, .downDelete p)
  | w => w

/-- Those of one client. -/
def ofClient (i : Nat) (l : List (Nat × Wire P V)) : List (Wire P V) := (l.filter fun x => x.1 = i).map Prod.snd

/-- Those of one client, and others not at all: `l` is put together from the lists `f i`, each in its order. -/
def Interleaves (l : List (Nat × Wire P V)) (n : Nat) (f : Nat → List (Wire P V)) : Prop :=
  (∀ x ∈ l, x.1 < n) ∧ ∀ i, i < n → ofClient i l = f i

end Nbdl.Relay.Spec
