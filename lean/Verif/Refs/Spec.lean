import Verif.Refs.Model
/-! What the user of a reference relies on. -/
namespace Nbdl.Refs.Spec
open MapStore
variable {P V : Type} [DecidableEq P]

/-- The stores of `Verif.MapStore`: without the objects. -/
def values (h : Heap P V) : Map P V := fun p => (h.at_ p).map (·.1)

/-- Objects are different, and numbers to come are new. -/
structure Sound (h : Heap P V) : Prop where
  old : ∀ p e i, h.at_ p = some (e, i) → i < h.next
  distinct : ∀ p q e e' i, h.at_ p = some (e, i) → h.at_ q = some (e', i) → p = q

/-- Messages that leave the value at a path alone: those towards the producer, those for other paths, and
answers to read requests (there is a value already). -/
def Leaves (p : P) : Msg P V → Prop
  | .downCreate q _ | .downUpdate q _ | .downDelete q => q ≠ p
  | _ => True

/-- Both an entity or both `not_found`. -/
def sameKind : Payload V → Payload V → Bool
  | .value _, .value _ => true
  | .notFound, .notFound => true
  | _, _ => false

/-- What a reference to a value `w` at path `p` refers to after the messages: the value it was last set to,
as long as it is an entity and stays one (or stays `not_found`) and is not deleted. -/
def follow (p : P) : Payload V → List (Msg P V) → Cpp (Payload V)
  | w, [] => .ok w
  | w, .downCreate q w' :: ms | w, .downUpdate q w' :: ms =>
    if q = p then
      if sameKind w w' then follow p w' ms else .ub
    else follow p w ms
  | w, .downDelete q :: ms => if q = p then .ub else follow p w ms
  | w, _ :: ms => follow p w ms

end Nbdl.Refs.Spec
