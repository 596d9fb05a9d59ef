import Verif.JsVal.Model
/-!
# Variables which hold a value

Each object has a value of its own: nothing is shared and there is no table.
-/
namespace Nbdl.JsVal.Spec
open Nbdl.JsVal

/-- `none`: there is no such object; `some x`: there is, and its value is `x`. -/
abbrev Vars (V : Type) := Nat → Option (Option V)

/-- The variables with one of them changed. -/
def upd {V} (e : Vars V) (a : Nat) (x : Option (Option V)) : Vars V :=
  fun i => if i = a then x else e i

/-- What each operation should do. Moving leaves `undefined` behind; moving something onto itself
changes nothing. -/
def step {V} (e : Vars V) : Op V → Cpp (Vars V)
  | .make a =>
    match e a with
    | none => .ok (upd e a (some none))
    | some _ => .ub
  | .makeCopy a s =>
    match e a, e s with
    | none, some x => .ok (upd e a (some x))
    | _, _ => .ub
  | .makeMove a s =>
    match e a, e s with
    | none, some x => .ok (upd (upd e s (some none)) a (some x))
    | _, _ => .ub
  | .assign a s =>
    match e a, e s with
    | some _, some x => .ok (upd e a (some x))
    | _, _ => .ub
  | .moveAssign a s =>
    match e a, e s with
    | some _, some x => .ok (upd (upd e s (some none)) a (some x))
    | _, _ => .ub
  | .transform a f =>
    match e a with
    | some x => .ok (upd e a (some (f x)))
    | none => .ub
  | .destroy a =>
    match e a with
    | some _ => .ok (upd e a none)
    | none => .ub

/-- A program. -/
def run {V} : List (Op V) → Vars V → Cpp (Vars V)
  | [], e => .ok e
  | o :: os, e => (step e o).bind (run os)

/-- A program which never moves an object onto itself. -/
def NoSelfMove {V} (os : List (Op V)) : Prop := ∀ o ∈ os, ∀ a, o ≠ .moveAssign a a

/-- What can be seen of the objects. -/
def view {V} (m : M V) : Vars V := fun a => if m.live a then some (get m a) else none

end Nbdl.JsVal.Spec
