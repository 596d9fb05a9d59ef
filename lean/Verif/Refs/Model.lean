import Verif.MapStore.Model
/-!
# The objects in a map store

`match` hands its callback a reference to the object in the store (`std::visit` in
`/repo/include/nbdl/variant.hpp`:96-109, `/repo/include/nbdl/ext/std/unordered_map.hpp`:31-50,
`/repo/include/nbdl/context.hpp`:329-333 for a context).  The callback may push messages and use the
reference afterwards.  Here the map store of `Verif.MapStore` is given with its objects: each alternative that
a variant holds is an object with a number, and numbers are never used twice.

What is used of C++: `std::unordered_map` keeps its elements where they are until they are erased, also when
it grows; the assignment of a `std::variant` (the implicit assignment of `detail::variant`, variant.hpp:60-67,
after the conversion from the payload) assigns to the object if the alternative is the same and otherwise
destroys the object and makes another.
-/
namespace Nbdl.Refs
open MapStore

/-- A store with its objects: for each path what is stored and the number of the object, and the next
number. -/
structure Heap (P V : Type) where
  at_ : P → Option (Entry V × Nat)
  next : Nat

variable {P V : Type} [DecidableEq P]

/-- The alternatives are the same: `unresolved`, the entity or `not_found`. -/
def sameAlt : Entry V → Entry V → Bool
  | .unresolved, .unresolved => true
  | .resolved (.value _), .resolved (.value _) => true
  | .resolved .notFound, .resolved .notFound => true
  | _, _ => false

/-- The object for a path after it was set to `e`: the one that is there, or a new one. -/
def objectFor (h : Heap P V) (p : P) (e : Entry V) : Nat :=
  match h.at_ p with
  | some (old, i) => if sameAlt old e then i else h.next
  | none => h.next

/-- `map[p] = e`.  Simplification: a number is used up even if no object is made. -/
def Heap.set (h : Heap P V) (p : P) (e : Entry V) : Heap P V :=
  ⟨fun q => if q = p then some (e, objectFor h p e) else h.at_ q, h.next + 1⟩

/-- `map.erase(p)` -/
def Heap.erase (h : Heap P V) (p : P) : Heap P V := ⟨fun q => if q = p then none else h.at_ q, h.next⟩

/-- `handle_map_store_action`, map_store.hpp:28-112 -/
def apply (h : Heap P V) : Msg P V → Heap P V
  | .upRead p => match h.at_ p with
    | none => h.set p .unresolved
    | some _ => h
  | .downCreate p w => h.set p (.resolved w)
  | .downUpdate p w => h.set p (.resolved w)
  | .downRead p w => match h.at_ p with
    | none => (h.set p .unresolved).set p (.resolved w)
    | some (.unresolved, _) => h.set p (.resolved w)
    | some (.resolved _, _) => h
  | .downDelete p => h.erase p
  | .upCreate _ _ | .upUpdate _ _ | .upDelete _ => h

/-- Messages one after the other. -/
def applyAll (h : Heap P V) : List (Msg P V) → Heap P V
  | [] => h
  | m :: ms => applyAll (apply h m) ms

/-- A reference to the object at a path. -/
structure Ref (P : Type) where
  path : P
  object : Nat

/-- What the callback of `match` is handed if there is a value. -/
def handed (h : Heap P V) (p : P) : Option (Payload V × Ref P) :=
  match h.at_ p with
  | some (.resolved w, i) => some (w, ⟨p, i⟩)
  | _ => none

/-- Reading through a reference: undefined behaviour if the object is gone. -/
def deref (h : Heap P V) (r : Ref P) : Cpp (Payload V) :=
  match h.at_ r.path with
  | some (.resolved w, i) => if i = r.object then .ok w else .ub
  | _ => .ub

end Nbdl.Refs
