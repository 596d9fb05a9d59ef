import Verif.TupleLike.Model
/-! What is expected of the elements of tuples, without the dispatch of the implementation. -/
namespace Nbdl.TupleLike.Spec
open Nbdl.TupleLike

/-- Tuples, pairs and arrays of the standard library. -/
def Std : Val → Prop
  | .tuple _ => True
  | .pair _ _ => True
  | .array _ _ => True
  | _ => False

/-- … that Hana has no adapter for. -/
def Plain (h : Headers) : Val → Prop
  | .tuple _ => h.tuple = false
  | .pair _ _ => h.pair = false
  | .array _ _ => h.array = false
  | _ => False

/-- Something with elements: a tuple-like or a sequence. -/
def Compound : Val → Prop
  | .tuple _ => True
  | .pair _ _ => True
  | .array _ _ => True
  | .seq _ => True
  | .prod _ _ => True
  | _ => False

/-- The innermost object that a chain of reference wrappers leads to has elements. -/
def LeadsToCompound : Val → Prop
  | .ref w => LeadsToCompound w
  | v => Compound v

/-- What reading an element yields: the object that a reference wrapper refers to, if elements of that can be read in turn,
and otherwise the element itself. -/
inductive Reads : Val → Val → Prop
  | wrapped (w) : LeadsToCompound w → Reads (.ref w) w
  | wrapper (w) : ¬ LeadsToCompound w → Reads (.ref w) (.ref w)
  | element (v) : (∀ w, v ≠ .ref w) → Reads v v

/-- The arguments a function is given for the elements: one for each that is not empty, in order; for reference wrappers,
what they refer to. -/
inductive Handed (emp : Ty → Bool) : List Val → List Val → Prop
  | nil : Handed emp [] []
  | empty {v vs as} : emp v.ty = true → (∀ w, v ≠ .ref w) → Handed emp vs as → Handed emp (v :: vs) as
  | emptyRef {w vs as} : emp w.ty = true → Handed emp vs as → Handed emp (.ref w :: vs) as
  | arg {v vs as} : emp v.ty = false → (∀ w, v ≠ .ref w) → Handed emp vs as → Handed emp (v :: vs) (v :: as)
  | argRef {w vs as} : emp w.ty = false → Handed emp vs as → Handed emp (.ref w :: vs) (w :: as)

/-- The elements after the function has assigned `new` to the arguments: element by element. -/
inductive Assigned (emp : Ty → Bool) : List Val → List Val → List Val → Prop
  | nil : Assigned emp [] [] []
  | empty {v vs new vs'} : emp v.ty = true → (∀ w, v ≠ .ref w) → Assigned emp vs new vs' →
      Assigned emp (v :: vs) new (v :: vs')
  | emptyRef {w vs new vs'} : emp w.ty = true → Assigned emp vs new vs' → Assigned emp (.ref w :: vs) new (.ref w :: vs')
  | arg {v x vs new vs'} : emp v.ty = false → (∀ w, v ≠ .ref w) → Assigned emp vs new vs' →
      Assigned emp (v :: vs) (x :: new) (x :: vs')
  | argRef {w x vs new vs'} : emp w.ty = false → Assigned emp vs new vs' →
      Assigned emp (.ref w :: vs) (x :: new) (.ref x :: vs')

end Nbdl.TupleLike.Spec
