import Verif.PathPromise.Model
/-!
# What a path leads to (C103)
-/
namespace Nbdl.PathPromise.Spec
open Path Promise

variable {K V N A T : Type} [DecidableEq K]

/-- The keys of a node. -/
def keys : Node K T → List K
  | .get p => p
  | .matchType _ p => p

/-- The type a node asks for. -/
def wants : Node K T → Option T
  | .get _ => none
  | .matchType t _ => some t

/-- What lies at the end of the keys of all these nodes, the first step first. -/
def valueAt (ops : Ops K V N A) (s : Store K V N) (ns : List (Node K T)) : Option (Store K V N) :=
  matchPath ops s (ns.flatMap keys)

/-- After each of these steps there is a store, of the type asked for. -/
def Passes (ops : Ops K V N A) (type : Store K V N → T) (s : Store K V N) (ns : List (Node K T)) : Prop :=
  ∀ pre n post, ns = pre ++ n :: post →
    ∃ v, valueAt ops s (pre ++ [n]) = some v ∧ isStore v = true ∧ ∀ t, wants n = some t → type v = t

/-- The functions of the first `k` steps are called, each once, in order. -/
def Ran (k : Nat) (es : List (Event (Store K V N) (Store K V N))) : Prop :=
  ∃ vs : List (Store K V N), vs.length = k ∧ es = vs.mapIdx fun i v => .ran i v

end Nbdl.PathPromise.Spec
