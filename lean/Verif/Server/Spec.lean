import Verif.Server.Model
/-!
# What a server should do
-/
namespace Nbdl.Server.Spec
open Nbdl.Server

/-- All that client `c` has sent. -/
def sentBy (c : Nat) (es : List Ev) : List Byte :=
  (es.map fun e => match e with | .data c' bs => if c' = c then bs else [] | _ => []).flatten

/-- A client is to be served if it has connected and what it has sent, it alone, begins with a
request to open a websocket. -/
def Deserves {R} (parse : List Byte → Parsed R) (upgrade : R → Bool) (es : List Ev) (c : Nat)
    (r : R) : Prop :=
  .connect c ∈ es ∧ (∃ rest, parse (sentBy c es) = .done r rest) ∧ upgrade r = true

/-- The clients which have connected, in order. -/
def clients (es : List Ev) : List Nat :=
  es.filterMap fun e => match e with | .connect c => some c | _ => none

/-- The connections which are there after a history: those registered and not since unregistered,
in order. -/
def present {M} : List (Op M) → List Nat → List Nat
  | [], l => l
  | .register c :: os, l => present os (l ++ [c])
  | .unregister c :: os, l => present os (l.filter fun i => i ≠ c)
  | .send _ :: os, l => present os l

/-- What is to be sent: each message, once, to each connection there at the time. -/
def sends {M} : List (Op M) → List Nat → List (Nat × M)
  | [], _ => []
  | .register c :: os, l => sends os (l ++ [c])
  | .unregister c :: os, l => sends os (l.filter fun i => i ≠ c)
  | .send m :: os, l => l.map (fun c => (c, m)) ++ sends os l

/-- Each connection registers when it is not registered. -/
def Once {M} : List (Op M) → List Nat → Prop
  | [], _ => True
  | .register c :: os, l => c ∉ l ∧ Once os (l ++ [c])
  | .unregister c :: os, l => Once os (l.filter fun i => i ≠ c)
  | .send _ :: os, l => Once os l

/-- The same for the JavaScript server: connections go when the client closes them or when they
send something that cannot be read. -/
def jsSends {D X M} (read : D → Option (Option X)) : List (JsEv D M) → List Nat → List (Nat × M)
  | [], _ => []
  | .connect c :: es, l => jsSends read es (l ++ [c])
  | .message c d :: es, l =>
    match read d with
    | some (some _) => jsSends read es l
    | _ => jsSends read es (l.filter fun i => i ≠ c)
  | .clientClose c :: es, l => jsSends read es (l.filter fun i => i ≠ c)
  | .send m :: es, l => l.map (fun c => (c, m)) ++ jsSends read es l

/-- What the context is to be given: each readable message, once, in order. -/
def jsReceives {D X M} (read : D → Option (Option X)) (es : List (JsEv D M)) : List (Nat × X) :=
  es.filterMap fun e => match e with
    | .message c d => match read d with
      | some (some x) => some (c, x)
      | _ => none
    | _ => none

/-- No client closes its connection, sends what is not JSON, or connects twice. -/
def Polite {D X M} (read : D → Option (Option X)) : List (JsEv D M) → List Nat → Prop
  | [], _ => True
  | .connect c :: es, l => c ∉ l ∧ Polite read es (c :: l)
  | .message _ d :: es, l => read d ≠ none ∧ Polite read es l
  | .clientClose _ :: _, _ => False
  | .send _ :: es, l => Polite read es l

end Nbdl.Server.Spec
