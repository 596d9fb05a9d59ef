import Verif.ClientJs.Model
/-!
# What a client should hear of its connection
-/
namespace Nbdl.ClientJs.Spec
open Nbdl.ClientJs

/-- Once connected: each message which is JSON, in order; the first error or the closing of the
connection is an error, and the last thing heard. -/
def reading {D J E} (parse : D → Option J) : List (In D E) → List (Out J E)
  | [] => []
  | .message d :: is =>
    match parse d with
    | some j => .msg j :: reading parse is
    | none => reading parse is
  | .error e :: _ => [.err e]
  | .close e :: _ => [.err e]
  | .opened _ :: is => reading parse is
  | .resume _ :: is => reading parse is

/-- From the start: that it is connected, and then the above; or that it could not connect. -/
def heard {D J E} (parse : D → Option J) : List (In D E) → List (Out J E)
  | [] => []
  | .opened e :: is => .ready e :: reading parse is
  | .error e :: _ => [.err e]
  | .close e :: _ => [.err e]
  | .message _ :: is => heard parse is
  | .resume _ :: is => heard parse is

/-- Nothing more is heard once the client has failed to handle something (the `k`-th thing). -/
def untilStop {J E} (react : Nat → React) : Nat → List (Out J E) → List (Out J E)
  | _, [] => []
  | k, x :: xs => x :: if react k = .stop then [] else untilStop react (k + 1) xs

/-- Whether a client which is not busy is given something for this event (other than an error): the
opening of the connection, or once it is `connected` a message which is JSON. -/
def gives {D J E} (parse : D → Option J) (connected : Bool) : In D E → Bool
  | .opened _ => !connected
  | .message d => connected && (parse d).isSome
  | _ => false

/-- The history without what happens while the client is `busy` with the `k`-th thing it was given:
up to the moment when it has finished (nothing more if it has failed). -/
def attended {D J E} (parse : D → Option J) (react : Nat → React) :
    Bool → Bool → Nat → List (In D E) → List (In D E)
  | _, _, _, [] => []
  | connected, true, k, .resume true :: is => attended parse react connected false k is
  | _, true, _, .resume false :: _ => []
  | connected, true, k, _ :: is => attended parse react connected true k is
  | connected, false, k, i :: is =>
    i :: if gives parse connected i then attended parse react true (react k = .later) (k + 1) is
      else attended parse react connected false k is

/-- The messages in a history which are JSON, in order. -/
def arrived {D J E} (parse : D → Option J) (is : List (In D E)) : List J :=
  is.filterMap fun i => match i with | .message d => parse d | _ => none

/-- The messages among the things heard, in order. -/
def messages {J E} (os : List (Out J E)) : List J :=
  os.filterMap fun o => match o with | .msg j => some j | _ => none

/-- A thing heard is an error. -/
def isErr {J E} : Out J E → Bool
  | .err _ => true | _ => false

end Nbdl.ClientJs.Spec
