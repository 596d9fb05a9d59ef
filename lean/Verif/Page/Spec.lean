import Verif.Page.Model
import Verif.Nested.Spec
import Verif.Dom.Props
/-! What a user of a page relies on. -/
namespace Nbdl.Page.Spec
open MapStore (Msg View Payload)
open Context (Config Actor StoreOps actorsWith)
open Nested Nested.Spec
variable {A S P V : Type}

/-- The stores show the same values at all paths. -/
def SameValues (c : Config S P V) (st st' : Nat → S) : Prop := ∀ t p, shows c st t p = shows c st' t p

mutual
/-- What the specification shows depends on the stores only as far as `R` tells them apart. -/
def Respects {T : Type} (R : T → T → Prop) : Dom.Item T → Prop
  | .elem _ items => RespectsAll R items
  | .text t => RespectsText R t
  | .attrDyn _ f => ∀ s s', R s s' → f s = f s'
  | .attrIf _ f => ∀ s s', R s s' → f s = f s'
  | .classIf _ f => ∀ s s', R s s' → f s = f s'
  | .classWhen _ f => ∀ s s', R s s' → f s = f s'
  | .branch f bs => (∀ s s', R s s' → f s = f s') ∧ RespectsAll R bs
  | .forEach f _ => ∀ s s', R s s' → f s = f s'
  | .attr _ _ | .html _ | .noop => True
def RespectsAll {T : Type} (R : T → T → Prop) : List (Dom.Item T) → Prop
  | [] => True
  | x :: xs => Respects R x ∧ RespectsAll R xs
def RespectsText {T : Type} (R : T → T → Prop) : Dom.TextSpec T → Prop
  | .const _ => True
  | .path f => ∀ s s', R s s' → f s = f s'
  | .concat ts => RespectsTexts R ts
def RespectsTexts {T : Type} (R : T → T → Prop) : List (Dom.TextSpec T) → Prop
  | [] => True
  | t :: ts => RespectsText R t ∧ RespectsTexts R ts
end

/-- The document is `doc` with the trees of the specification for stores `st` in element `el`, and nothing
else. -/
structure IsPage (doc : Dom.Dom) (el : Nat) (x : Dom.Item (Nat → S)) (st : Nat → S) (doc' : Dom.Dom) : Prop where
  shown : ∃ ids, (doc'.node el).children = (doc.node el).children ++ ids ∧ Dom.Spec.ShowsAll doc' (Dom.Spec.trees st x) ids
  others : ∀ i, i < doc.next → i ≠ el → doc'.node i = doc.node i
  attrs : Dom.SetsOnly doc doc' el st x

/-- A constructor that does not use the handle. -/
inductive Silent : Prog A P V → Prop where
  | done : Silent .done
  | get {k} (h : ∀ a, Silent (k a)) : Silent (.get k)
  | put {a k} (h : Silent k) : Silent (.put a k)

end Nbdl.Page.Spec
