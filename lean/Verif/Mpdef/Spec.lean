import Verif.Mpdef.Model
/-! # Specification of searching a tree, independent of the search -/
namespace Nbdl.Mpdef.Spec
open Nbdl.Mpdef

variable {K A S : Type}

/-- The node at a position: the indices of the children on the way from the root. -/
def sub : Tree K A → List Nat → Option (Tree K A)
  | t, [] => some t
  | t, i :: p =>
    match t.kids[i]? with
    | none => none
    | some c => sub c p

/-- The nodes from the root to a position, both included. -/
def along : Tree K A → List Nat → List (Tree K A)
  | t, [] => [t]
  | t, i :: p =>
    match t.kids[i]? with
    | none => []
    | some c => t :: along c p

/-- The node at `p` matches and no node above it does. -/
def Outermost (pred : Tree K A → Bool) (t : Tree K A) (p : List Nat) : Prop :=
  (∃ n, sub t p = some n ∧ pred n = true)
    ∧ ∀ q, q <+: p → q ≠ p → ∀ m, sub t q = some m → pred m = false

/-- The one child with key `k`, if there is exactly one. -/
def only [DecidableEq K] (k : K) (ts : List (Tree K A)) : Option (Tree K A) :=
  if ts.countP (fun t => t.key? = some k) = 1 then ts.find? (fun t => t.key? = some k) else none

/-- The setting for `k` made by a node itself. -/
def own [DecidableEq K] (k : K) : Tree K A → Option (Tree K A)
  | .map _ ts => only k ts
  | _ => none

/-- The setting that holds below some nodes, outermost first: the one made last. -/
def inherited [DecidableEq K] (k : K) (nodes : List (Tree K A)) : Option (Tree K A) :=
  (nodes.filterMap (own k)).getLast?

end Nbdl.Mpdef.Spec
