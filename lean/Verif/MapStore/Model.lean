import Verif.Common
/-!
# The map store

Models `/repo/include/nbdl/map_store.hpp`, `/repo/include/nbdl/fwd/map_store.hpp` and the container
matching of `/repo/include/nbdl/ext/std/unordered_map.hpp`.

Simplifications: the `std::unordered_map` is a finite-map semantics (a function to `Option`), which
is justified as long as the hash respects equality (C38); messages carry only the fields the store
looks at (direction, action, path, payload).
-/
namespace Nbdl.MapStore

/-- What a create/update/read answer can carry: an entity, or `nbdl::not_found`. -/
inductive Payload (V : Type) where
  | value (v : V)
  | notFound
  deriving DecidableEq, Repr

/-- The stored variant, fwd/map_store.hpp:28: `variant<unresolved, Entity, not_found>`; a
default-constructed one is `unresolved`. -/
inductive Entry (V : Type) where
  | unresolved
  | resolved (w : Payload V)
  deriving DecidableEq, Repr

/-- The eight messages (`up` is towards the producer). -/
inductive Msg (P V : Type) where
  | upCreate (p : P) (v : V)
  | upRead (p : P)
  | upUpdate (p : P) (v : V)
  | upDelete (p : P)
  | downCreate (p : P) (w : Payload V)
  | downRead (p : P) (w : Payload V)
  | downUpdate (p : P) (w : Payload V)
  | downDelete (p : P)
  deriving DecidableEq, Repr

/-- `message::get_path` -/
def Msg.path {P V : Type} : Msg P V → P
  | .upCreate p _ | .upRead p | .upUpdate p _ | .upDelete p
  | .downCreate p _ | .downRead p _ | .downUpdate p _ | .downDelete p => p

/-- `message::is_upstream` -/
def Msg.isUpstream {P V : Type} : Msg P V → Bool
  | .upCreate _ _ | .upRead _ | .upUpdate _ _ | .upDelete _ => true
  | _ => false

/-- `message::is_upstream && message::is_read` -/
def Msg.isUpRead {P V : Type} : Msg P V → Bool
  | .upRead _ => true
  | _ => false

/-- The container, map_store.hpp:121 -/
abbrev Map (P V : Type) := P → Option (Entry V)

variable {P V : Type} [DecidableEq P]

/-- `map[p] = e` -/
def Map.set (m : Map P V) (p : P) (e : Entry V) : Map P V := fun q => if q = p then some e else m q

/-- `map.erase(p)` -/
def Map.erase (m : Map P V) (p : P) : Map P V := fun q => if q = p then none else m q

/-- `handle_map_store_action`, map_store.hpp:28-112: the new container and whether a change is
reported. -/
def apply (m : Map P V) : Msg P V → Map P V × Bool
  -- 38-57
  | .upRead p => (if m p = none then m.set p .unresolved else m, false)
  -- 59-70
  | .downCreate p w => (m.set p (.resolved w), true)
  -- 72-82
  | .downUpdate p w => (m.set p (.resolved w), true)
  -- 84-100: `map[p]` inserts an unresolved entry if there is none
  | .downRead p w =>
    match (m p).getD .unresolved with
    | .unresolved => (m.set p (.resolved w), true)
    | .resolved _ => (m, false)
  -- 102-111
  | .downDelete p => (m.erase p, true)
  -- 30-36
  | _ => (m, false)

/-- What `nbdl::match` shows for a path, unordered_map.hpp:31-50.  The `NotInSetTag` of the store
(`nbdl::trigger_read`, fwd/map_store.hpp:29) is not used: an absent path is `not_in_set`. -/
inductive View (V : Type) where
  | triggerRead
  | notInSet
  | unresolved
  | value (w : Payload V)
  deriving DecidableEq, Repr

def view (m : Map P V) (p : P) : View V :=
  match m p with
  | none => .notInSet
  | some .unresolved => .unresolved
  | some (.resolved w) => .value w

/-- A new store, map_store.hpp:129-131 -/
def empty : Map P V := fun _ => none

/-- The store after a history of messages. -/
def runAll (h : List (Msg P V)) : Map P V := h.foldl (fun m x => (apply m x).1) empty

end Nbdl.MapStore
