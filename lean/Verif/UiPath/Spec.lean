import Verif.UiPath.Model
/-!
# What a specification means

Directly, on the specification as it was written: every parameter is looked up in the one store.
-/
namespace Nbdl.UiPath.Spec
open Nbdl.UiPath

variable {V Ty : Type} [DecidableEq Ty]

/-- The value at the end of a list of keys. -/
def follow (w : World V Ty) : Option V → List V → Option V
  | v, [] => v
  | none, _ => none
  | some v, k :: ks => follow w (w.child v k) ks

/-- A value of the type, or `void` which stands for any. -/
def fits (w : World V Ty) (t : Option Ty) (v : V) : Bool :=
  t.all fun t => decide (w.type v = t)

mutual
/-- The values of a parameter, if everything it needs is there. -/
def param (w : World V Ty) (s : V) : Param V Ty → Option (List V)
  | .const v => some [v]
  | .path p => (path w s p).map fun v => [v]
  | .keyAt p => (path w s p).map fun v => [v]
  | .apply f ps => (params w s ps).map fun vs => [w.fn f vs]
  | .branch b => branch w s b
  | .concat ps => params w s ps
/-- The values of a list of parameters, in order. -/
def params (w : World V Ty) (s : V) : Params V Ty → Option (List V)
  | .nil => some []
  | .cons x xs =>
    match param w s x, params w s xs with
    | some a, some b => some (a ++ b)
    | _, _ => none
/-- The value at a path: the steps come after the rest; at `match_type` the value has to have that
type (any, if it is `void`). -/
def path (w : World V Ty) (s : V) : Path V Ty → Option V
  | .nil => some s
  | .get ps rest =>
    match path w s rest, params w s ps with
    | some v, some ks => follow w (some v) ks
    | _, _ => none
  | .matchType t ps rest =>
    match path w s rest, params w s ps with
    | some v, some ks => (follow w (some v) ks).filter fun r => fits w t r
    | _, _ => none
/-- The parameters chosen by the value at the path. -/
def branch (w : World V Ty) (s : V) : Branch V Ty → Option (List V)
  | .match p ws =>
    match path w s p with
    | some v => whens w s v ws
    | none => none
  | .matchIf p ws =>
    match path w s p with
    | some v => whens w s v ws
    | none => none
/-- The first alternative which fits. -/
def whens (w : World V Ty) (s v : V) : Whens V Ty → Option (List V)
  | .nil => none
  | .when t ps ws => if fits w t v then params w s ps else whens w s v ws
  | .cond i ps ws => if w.pred i v then params w s ps else whens w s v ws
end

mutual
/-- Nothing has to be looked up in a store. -/
def closed : Param V Ty → Prop
  | .const _ => True
  | .path _ => False
  | .keyAt _ => False
  | .apply _ ps => closedAll ps
  | .branch _ => False
  | .concat ps => closedAll ps
/-- See `closed`. -/
def closedAll : Params V Ty → Prop
  | .nil => True
  | .cons x xs => closed x ∧ closedAll xs
end

mutual
/-- The specifications for which the code is right: a path which was narrowed to a type goes on with
keys that are not looked up; it is not narrowed to `void`; the path of a branch has a value and one
of the alternatives fits. -/
def fine (w : World V Ty) (s : V) : Param V Ty → Prop
  | .const _ => True
  | .path p => finePath w s p
  | .keyAt p => finePath w s p
  | .apply _ ps => fineAll w s ps
  | .branch b => fineBranch w s b
  | .concat ps => fineAll w s ps
/-- See `fine`. -/
def fineAll (w : World V Ty) (s : V) : Params V Ty → Prop
  | .nil => True
  | .cons x xs => fine w s x ∧ fineAll w s xs
/-- See `fine`. -/
def finePath (w : World V Ty) (s : V) : Path V Ty → Prop
  | .nil => True
  | .get ps .nil => fineAll w s ps
  | .get ps rest => closedAll ps ∧ finePath w s rest
  | .matchType t ps .nil => t ≠ none ∧ fineAll w s ps
  | .matchType t ps rest => t ≠ none ∧ closedAll ps ∧ finePath w s rest
/-- See `fine`. -/
def fineBranch (w : World V Ty) (s : V) : Branch V Ty → Prop
  | .match p ws => finePath w s p ∧ ∃ v, path w s p = some v ∧ fineWhens w s v ws
  | .matchIf p ws => finePath w s p ∧ ∃ v, path w s p = some v ∧ fineWhens w s v ws
/-- See `fine`. -/
def fineWhens (w : World V Ty) (s v : V) : Whens V Ty → Prop
  | .nil => False
  | .when t ps ws => if fits w t v then fineAll w s ps else fineWhens w s v ws
  | .cond i ps ws => if w.pred i v then fineAll w s ps else fineWhens w s v ws
end

mutual
/-- The text of a parameter: nothing for a path without a value. -/
def text (w : World V Ty) (tx : V → List Byte) (s : V) : Param V Ty → List Byte
  | .const v => tx v
  | .path p => ((path w s p).map tx).getD []
  | .keyAt p => ((path w s p).map tx).getD []
  | .apply f ps => ((params w s ps).map fun vs => tx (w.fn f vs)).getD []
  | .branch b => textBranch w tx s b
  | .concat ps => textAll w tx s ps
/-- The texts one after the other. -/
def textAll (w : World V Ty) (tx : V → List Byte) (s : V) : Params V Ty → List Byte
  | .nil => []
  | .cons x xs => text w tx s x ++ textAll w tx s xs
/-- The text of the alternative chosen. -/
def textBranch (w : World V Ty) (tx : V → List Byte) (s : V) : Branch V Ty → List Byte
  | .match p ws => ((path w s p).map fun v => textWhens w tx s v ws).getD []
  | .matchIf p ws => ((path w s p).map fun v => textWhens w tx s v ws).getD []
/-- See `textBranch`. -/
def textWhens (w : World V Ty) (tx : V → List Byte) (s v : V) : Whens V Ty → List Byte
  | .nil => []
  | .when t ps ws => if fits w t v then textAll w tx s ps else textWhens w tx s v ws
  | .cond i ps ws => if w.pred i v then textAll w tx s ps else textWhens w tx s v ws
end

mutual
/-- No `apply` (outside paths): `params_concat` has no case for it. -/
def plain : Param V Ty → Prop
  | .apply _ _ => False
  | .branch b => plainBranch b
  | .concat ps => plainAll ps
  | _ => True
/-- See `plain`. -/
def plainAll : Params V Ty → Prop
  | .nil => True
  | .cons x xs => plain x ∧ plainAll xs
/-- See `plain`. -/
def plainBranch : Branch V Ty → Prop
  | .match _ ws => plainWhens ws
  | .matchIf _ ws => plainWhens ws
/-- See `plain`. -/
def plainWhens : Whens V Ty → Prop
  | .nil => True
  | .when _ ps ws => plainAll ps ∧ plainWhens ws
  | .cond _ ps ws => plainAll ps ∧ plainWhens ws
end

end Nbdl.UiPath.Spec
