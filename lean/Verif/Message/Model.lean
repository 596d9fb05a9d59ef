import Verif.Common
/-!
# Messages and the echo producer

Models `/repo/include/nbdl/message.hpp`, `/repo/include/nbdl/fwd/message.hpp` and
`/repo/include/nbdl/echo_producer.hpp`.

A C++ message is a tuple whose element types tell which fields it has (`no_impl` stands for "none").
Here a message is its kind and the list of its tuple elements, and the accessors are the tuple
indices the macros are used with.  What the C++ decides at compile time is decided at run time; a
program that does not compile is the outcome `illFormed`.

`K` are key values, `U` uids, `V` payloads, `W` private payloads.
-/
namespace Nbdl.Message

/-- The key type of a `create_path`, as far as the code asks about it: whether it is an empty class
(then it has one value) and whether it can be made from a uid. -/
structure KeyType (K U : Type) where
  isEmpty : Bool
  emptyKey : K
  fromUid : Option (U → K)

/-- A tuple element. -/
inductive Val (K U V W : Type) where
  | path (keys : List K)
  /-- `create_path<Key, ParentPath>`, fwd/message.hpp:52-61 -/
  | createPath (parent : List K) (key : KeyType K U)
  | uid (u : U)
  | payload (v : V)
  | priv (w : W)
  | flag (b : Bool)
  /-- `no_impl`, fwd/message.hpp:109 -/
  | noImpl

/-- The message templates, fwd/message.hpp:16-48 -/
inductive Kind where
  | upCreate | upRead | upUpdate | upDelete
  | downCreate | downRead | downUpdate | downDelete
  deriving DecidableEq, Repr

inductive Channel where
  | upstream | downstream
  deriving DecidableEq, Repr

inductive Action where
  | create | read | update | delete
  deriving DecidableEq, Repr

/-- `get_channel_impl`, message.hpp:102-103, 179-180, 215-216, 247-248, 280-281, 319-320, 340-341, 360-361 -/
def Kind.channel : Kind → Channel
  | .upCreate | .upRead | .upUpdate | .upDelete => .upstream
  | _ => .downstream

/-- `get_action_impl`, message.hpp:105-106, 182-183, 218-219, 250-251, 283-284, 322-323, 343-344, 363-364 -/
def Kind.action : Kind → Action
  | .upCreate | .downCreate => .create
  | .upRead | .downRead => .read
  | .upUpdate | .downUpdate => .update
  | .upDelete | .downDelete => .delete

structure Message (K U V W : Type) where
  kind : Kind
  storage : List (Val K U V W)

/-- What an accessor yields: a value, the knowledge that the message has no such field, or a program
that does not compile. -/
inductive Access (α : Type) where
  | present (a : α)
  | absent
  | illFormed

variable {K U V W : Type}

/-- `NBDL_DETAIL_MESSAGE_ACCESSOR_IMPL`, message.hpp:21-29 -/
def required (m : Message K U V W) (i : Nat) : Access (Val K U V W) :=
  match m.storage[i]? with
  | some .noImpl | none => .illFormed
  | some v => .present v

/-- `NBDL_DETAIL_MESSAGE_OPTIONAL_ACCESSOR_IMPL`, message.hpp:31-40; `hana::at_c` beyond the end of
the tuple does not compile. -/
def optional (m : Message K U V W) (i : Nat) : Access (Val K U V W) :=
  match m.storage[i]? with
  | none => .illFormed
  | some .noImpl => .absent
  | some v => .present v

/-- `get_path`, index 0 for every kind: message.hpp:97, 176, 211, 244, 275, 314, 335, 356 -/
def getPath (m : Message K U V W) : Access (Val K U V W) := required m 0

/-- `get_uid`, index 1 for every kind: message.hpp:98, 177, 212, 245, 276, 315, 336, 357 -/
def getUid (m : Message K U V W) : Access (Val K U V W) := optional m 1

/-- `get_payload`, message.hpp:99, 213, 277, 316, 337.  Without an implementation `no_impl` is called
as a function: ill-formed. -/
def getPayload (m : Message K U V W) : Access (Val K U V W) :=
  match m.kind with
  | .upCreate | .upUpdate | .downCreate | .downRead | .downUpdate => required m 2
  | _ => .illFormed

/-- `get_private_payload`, message.hpp:100: index 1. -/
def getPrivatePayload (m : Message K U V W) : Access (Val K U V W) :=
  match m.kind with
  | .upCreate => optional m 1
  | _ => .absent

/-- `is_confirmed`, message.hpp:278, 317, 338, 358 and 427-439: false if there is no such field. -/
def isConfirmed (m : Message K U V W) : Access (Val K U V W) :=
  let r := match m.kind with
    | .downCreate | .downRead | .downUpdate => optional m 3
    | .downDelete => optional m 2
    | _ => .absent
  match r with
  | .absent => .present (.flag false)
  | r => r

/-- `has_uid`, fwd/message.hpp:129-131 -/
def hasUid (m : Message K U V W) : Bool := match getUid m with | .present _ => true | _ => false

/-- `has_private_payload`, fwd/message.hpp:141-143: asks for the uid. -/
def hasPrivatePayload (m : Message K U V W) : Bool := match getUid m with | .present _ => true | _ => false

/-! ## Construction -/

/-- `no_uid` or a uid -/
def uidArg : Option U → Val K U V W
  | none => .noImpl
  | some u => .uid u

/-- `no_private_payload` or one -/
def privArg : Option W → Val K U V W
  | none => .noImpl
  | some w => .priv w

/-- `no_is_confirmed` or a flag -/
def flagArg : Option Bool → Val K U V W
  | none => .noImpl
  | some b => .flag b

/-- A path: a tuple of keys or a `create_path`. -/
inductive PathArg (K U : Type) where
  | full (keys : List K)
  | create (parent : List K) (key : KeyType K U)

def PathArg.val : PathArg K U → Val K U V W
  | .full ks => .path ks
  | .create p k => .createPath p k

/-- `make_upstream_create`, message.hpp:498-537 -/
def makeUpCreate (p : PathArg K U) (u : Option U) (v : V) (w : Option W) : Message K U V W :=
  ⟨.upCreate, [p.val, uidArg u, .payload v, privArg w]⟩
/-- `make_upstream_read`, message.hpp:539-565 -/
def makeUpRead (p : PathArg K U) (u : Option U) : Message K U V W := ⟨.upRead, [p.val, uidArg u]⟩
/-- `make_upstream_update`, message.hpp:567-581 -/
def makeUpUpdate (p : PathArg K U) (u : Option U) (v : V) : Message K U V W :=
  ⟨.upUpdate, [p.val, uidArg u, .payload v]⟩
/-- `make_upstream_delete`, message.hpp:583-595 -/
def makeUpDelete (p : PathArg K U) (u : Option U) : Message K U V W := ⟨.upDelete, [p.val, uidArg u]⟩
/-- `make_downstream_create`, message.hpp:597-616 -/
def makeDownCreate (p : PathArg K U) (u : Option U) (v : V) (c : Option Bool) : Message K U V W :=
  ⟨.downCreate, [p.val, uidArg u, .payload v, flagArg c]⟩
/-- `make_downstream_read`, message.hpp:618-632 -/
def makeDownRead (p : PathArg K U) (u : Option U) (v : V) : Message K U V W :=
  ⟨.downRead, [p.val, uidArg u, .payload v]⟩
/-- `make_downstream_update`, message.hpp:634-653 -/
def makeDownUpdate (p : PathArg K U) (u : Option U) (v : V) (c : Option Bool) : Message K U V W :=
  ⟨.downUpdate, [p.val, uidArg u, .payload v, flagArg c]⟩
/-- `make_downstream_delete`, message.hpp:655-669 -/
def makeDownDelete (p : PathArg K U) (u : Option U) (c : Option Bool) : Message K U V W :=
  ⟨.downDelete, [p.val, uidArg u, flagArg c]⟩

/-! ## Paths -/

/-- `get_normalized_create_path` and `is_create_path_normalizable`, message.hpp:48-79: `none` if it
cannot be formed. -/
def normalizedCreatePath (m : Message K U V W) : Option (List K) :=
  match getPath m with
  | .present (.createPath parent kt) =>
    match getUid m with
    | .present (.uid u) => kt.fromUid.map fun f => parent ++ [f u]
    | _ => if kt.isEmpty then some (parent ++ [kt.emptyKey]) else none
  | _ => none

/-- `requires_key_for_downstream`, message.hpp:108-112 -/
def requiresKey (m : Message K U V W) : Bool :=
  match getPath m with
  | .present (.createPath _ _) => (normalizedCreatePath m).isNone
  | _ => false

/-- `get_normalized_path`, fwd/message.hpp:122-123, message.hpp:114-128 and 286-302: `none` if it is
`no_impl`. -/
def normalizedPath (m : Message K U V W) : Option (List K) :=
  match m.kind, normalizedCreatePath m with
  | .upCreate, some ks | .downCreate, some ks => some ks
  | _, _ =>
    match getPath m with
    | .present (.path ks) => some ks
    | _ => none

/-! ## Turning messages around -/

/-- `hana::sfinae(get_uid)(m).value_or(no_impl{})` -/
def uidOrNone (m : Message K U V W) : Val K U V W :=
  match getUid m with
  | .present u => u
  | _ => .noImpl

/-- `to_downstream`, message.hpp:130-145, 221-232, 253-263 and 461-465.  Upstream reads have no
implementation. -/
def toDownstream (m : Message K U V W) (c : Option Bool) : Access (Message K U V W) :=
  match m.kind, getPath m, getPayload m with
  | .upCreate, .present p, .present v =>
    if (normalizedPath m).isSome && !requiresKey m then
      .present ⟨.downCreate, [p, uidOrNone m, v, flagArg c]⟩
    else .illFormed
  | .upUpdate, .present p, .present v => .present ⟨.downUpdate, [p, uidOrNone m, v, flagArg c]⟩
  | .upDelete, .present p, _ => .present ⟨.downDelete, [p, uidOrNone m, flagArg c]⟩
  | _, _, _ => .illFormed

/-- `to_downstream_with_key` and `to_downstream_with_key_confirmed`, message.hpp:147-161 and 467-485 -/
def toDownstreamWithKey (m : Message K U V W) (k : K) (c : Option Bool) : Access (Message K U V W) :=
  match m.kind, getPath m, getPayload m with
  | .upCreate, .present (.createPath parent _), .present v =>
    .present ⟨.downCreate, [.path (parent ++ [k]), uidOrNone m, v, flagArg c]⟩
  | _, _, _ => .illFormed

/-- `to_downstream_read`, message.hpp:185-195 and 487-494 -/
def toDownstreamRead (m : Message K U V W) (v : V) : Access (Message K U V W) :=
  match m.kind, getPath m with
  | .upRead, .present p => .present ⟨.downRead, [p, uidOrNone m, .payload v]⟩
  | _, _ => .illFormed

/-! ## The echo producer -/

/-- `make_unique_key`, echo_producer.hpp:22-44, for integral keys of `w` bits: the `static` counters
(one for each C++ type of message, here `T`) and the key, for counters that wrap: unsigned ones, and those
narrower than `int`, which are promoted.  See `givenKeys` for the others. -/
def makeUniqueKey {T : Type} [DecidableEq T] {w : Nat} (counters : T → BitVec w) (t : T) :
    (T → BitVec w) × BitVec w :=
  (fun t' => if t' = t then counters t + 1 else counters t', counters t + 1)

/-- `send_upstream_message`, echo_producer.hpp:64-88: the message pushed to the context.  `wrap` makes a
key from the counter; keys that are empty classes are returned as they are. -/
def echo {T : Type} [DecidableEq T] {w : Nat} (wrap : BitVec w → K) (counters : T → BitVec w) (t : T)
    (m : Message K U V W) : (T → BitVec w) × Access (Message K U V W) :=
  if requiresKey m then
    match getPath m with
    | .present (.createPath _ kt) =>
      if kt.isEmpty then (counters, toDownstreamWithKey m kt.emptyKey none)
      else ((makeUniqueKey counters t).1, toDownstreamWithKey m (wrap (makeUniqueKey counters t).2) none)
    | _ => (counters, .illFormed)
  else (counters, toDownstream m none)

/-- The keys given to a history of creates of the given message types. -/
def uniqueKeys {T : Type} [DecidableEq T] {w : Nat} (counters : T → BitVec w) : List T → List (BitVec w)
  | [] => []
  | t :: ts => (makeUniqueKey counters t).2 :: uniqueKeys (makeUniqueKey counters t).1 ts

/-- `++key`, echo_producer.hpp:34-35 and 41-42, for an integral type of `w` bits (an `int` has 32): a narrow one is
promoted, incremented and converted back, a wide signed one overflows with undefined behaviour. -/
def bump (sg : Bool) {w : Nat} (k : BitVec w) : Cpp (BitVec w) :=
  if sg ∧ 32 ≤ w ∧ k.toInt + 1 = 2 ^ (w - 1) then .ub else .ok (k + 1)

/-- The keys given to a history of creates of the given message types, for all integral types of keys. -/
def givenKeys {T : Type} [DecidableEq T] (sg : Bool) {w : Nat} (counters : T → BitVec w) : List T → Cpp (List (BitVec w))
  | [] => .ok []
  | t :: ts => (bump sg (counters t)).bind fun k =>
    (givenKeys sg (fun t' => if t' = t then k else counters t') ts).map (k :: ·)

end Nbdl.Message
