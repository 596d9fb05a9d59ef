import Verif.Def.Model
/-! # What a definition says, independent of the traversal -/
namespace Nbdl.Def.Spec
open Nbdl.Mpdef Nbdl.Mpdef.Spec

/-- An access point: its directives. -/
def asAccessPoint : Node → Option (List Node)
  | .map .accessPoint ts => some ts
  | _ => none

/-- The type a directive among the children names, if there is exactly one with this tag. -/
def typeSaid (ts : List Node) (k : Tag) : Option Ty :=
  match only k ts with
  | some (.leaf _ a) => some a
  | _ => none

/-- The children of the one child with a tag; none if there is no such child. -/
def below (ts : List Node) (k : Tag) : List Node :=
  match only k ts with
  | some (.list _ cs) => cs
  | some (.map _ cs) => cs
  | _ => []

/-- The actions allowed at an access point. -/
def actionsSaid (ts : List Node) : List Tag :=
  (below ts .actions).flatMap fun c =>
    match c with
    | .atom _ => []
    | .leaf k _ => [k]
    | .list k _ => [k]
    | .map k _ => [k]

/-- Its store: by default there is none. -/
def storeSaid (ts : List Node) : Ty :=
  match typeSaid ts .store with
  | some s => s
  | none => .nullStore

/-- The paths it listens to. -/
def pathsSaid (ts : List Node) : List (List Ty) :=
  (below ts .listenPaths).map fun p =>
    match p with
    | .list _ cs => cs.flatMap fun c => match c with | .atom a => [a] | _ => []
    | .map _ cs => cs.flatMap fun c => match c with | .atom a => [a] | _ => []
    | _ => []

/-- The path of a position: the path keys of the access points from the root down to it. -/
def keysAlong (d : Node) (p : List Nat) : List Ty :=
  ((along d p).filterMap asAccessPoint).filterMap fun ts => typeSaid ts .pathKey

/-- The position holds an access point with actions or a store. -/
def Relevant (d : Node) (p : List Nat) : Prop :=
  ∃ ts, sub d p = some (.map .accessPoint ts) ∧ (actionsSaid ts ≠ [] ∨ storeSaid ts ≠ .nullStore)

/-- What is said about the access point at a position. -/
def metaAt (d : Node) (p : List Nat) : Option Meta :=
  match (sub d p).bind asAccessPoint with
  | none => none
  | some ts =>
    some { name := (typeSaid ts .name).getD .void
           actions := actionsSaid ts
           store := storeSaid ts
           entity := (typeSaid ts .entity).getD (storeSaid ts)
           path := keysAlong d p
           listenPaths := pathsSaid ts }

mutual
/-- There is no access point in a definition. -/
def NoAccessPoint : Node → Prop
  | .atom _ => True
  | .leaf _ _ => True
  | .list k ts => k ≠ .accessPoint ∧ NoAccessPoints ts
  | .map k ts => k ≠ .accessPoint ∧ NoAccessPoints ts
def NoAccessPoints : List Node → Prop
  | [] => True
  | t :: ts => NoAccessPoint t ∧ NoAccessPoints ts
end

mutual
/-- Definitions as they are meant to be: access points have a path key, and contain other access points and
`AccessPoints`; any other directive has its access points in one child, an `AccessPoints` or else an
`AccessPoint`. -/
def WellFormed : Node → Prop
  | .atom _ => False
  | .leaf k _ => k ≠ .accessPoint ∧ k ≠ .accessPoints
  | .list k ts =>
    k ≠ .accessPoint ∧ if k = .accessPoints then AllWellFormed ts else NoAccessPoints ts
  | .map k ts =>
    if k = .accessPoint then (typeSaid ts .pathKey).isSome = true ∧ AllWellFormed ts
    else if k = .accessPoints then AllWellFormed ts
    else if (only .accessPoints ts).isSome then WellFormedOnly .accessPoints ts
    else if (only .accessPoint ts).isSome then WellFormedOnly .accessPoint ts
    else NoAccessPoints ts
def AllWellFormed : List Node → Prop
  | [] => True
  | t :: ts => WellFormed t ∧ AllWellFormed ts
/-- The children with the tag are well formed, the others hold no access points. -/
def WellFormedOnly (k : Tag) : List Node → Prop
  | [] => True
  | t :: ts => (if t.key? = some k then WellFormed t else NoAccessPoint t) ∧ WellFormedOnly k ts
end

end Nbdl.Def.Spec
