import Verif.Common
/-!
# JavaScript values held by C++ objects

Models `/repo/include/nbdl/detail/js_val.hpp` (lines 17–61), `/repo/include/nbdl/fwd/js.hpp`
(`js::val`, lines 54–98) and `/repo/include/nbdl/js.hpp` (`NBDL_JS_TRANSFORM` lines 24–26,
`val::copy` 54–62, `val::unregister` 64–67, `equal_impl` 142–154).

A `js::val` has no members: its value is kept in a JavaScript object,
`Module.nbdl_detail_json_val`, under the address of the C++ object.

Simplifications.
* An address is a natural number; its `int` (js_val.hpp:46-50; pointers have the size of `int`) is a
  different key for a different address.  Two live objects have different addresses: each has a
  `js_val` at its address, and objects of one type never share one.
* The table exists: `js::init()` was called (js_val.hpp:19-34 makes it once).
* JavaScript values are an arbitrary type `V`; `undefined` is `none`.
-/
namespace Nbdl.JsVal

/-- The live `js::val` objects and the table: `none` is a missing entry, `some none` an entry whose
value is `undefined`. -/
structure M (V : Type) where
  live : Nat → Bool
  table : Nat → Option (Option V)

/-- The start: no object, and an empty table (js_val.hpp:31). -/
def init {V} : M V := ⟨fun _ => false, fun _ => none⟩

/-- `Module.NBDL_DETAIL_JS_GET`, js_val.hpp:24-26: a missing entry is `undefined`. -/
def get {V} (m : M V) (a : Nat) : Option V := (m.table a).getD none

/-- `Module.NBDL_DETAIL_JS_SET`, js_val.hpp:27-30. -/
def set {V} (m : M V) (a : Nat) (x : Option V) : M V :=
  { m with table := fun i => if i = a then some x else m.table i }

/-- `delete Module.nbdl_detail_json_val[handle]`, js_val.hpp:39-44 and js.hpp:64-67. -/
def delete {V} (m : M V) (a : Nat) : M V :=
  { m with table := fun i => if i = a then none else m.table i }

/-- An object's lifetime begins or ends. -/
def setLive {V} (m : M V) (a : Nat) (b : Bool) : M V :=
  { m with live := fun i => if i = a then b else m.live i }

/-- `val::copy`, js.hpp:54-62. -/
def copy {V} (m : M V) (dst src : Nat) : M V := set m dst (get m src)

/-- What a program does with its values. -/
inductive Op (V : Type)
  /-- `val()`, fwd/js.hpp:56 -/
  | make (a : Nat)
  /-- `val(val const&)`, 58-61 -/
  | makeCopy (a src : Nat)
  /-- `val(val&&)`, 63-67 -/
  | makeMove (a src : Nat)
  /-- `operator=(val const&)`, 75-79 -/
  | assign (a src : Nat)
  /-- `operator=(val&&)`, 81-86 -/
  | moveAssign (a src : Nat)
  /-- `NBDL_JS_TRANSFORM`, js.hpp:24-26 -/
  | transform (a : Nat) (f : Option V → Option V)
  /-- `~js_val()`, js_val.hpp:39-44 -/
  | destroy (a : Nat)

/-- One operation; using an object which does not exist, or making one where one exists, is
undefined. -/
def step {V} (m : M V) : Op V → Cpp (M V)
  | .make a => if m.live a then .ub else .ok (setLive m a true)
  | .makeCopy a s =>
    if m.live a ∨ ¬ m.live s then .ub else .ok (copy (setLive m a true) a s)
  | .makeMove a s =>
    if m.live a ∨ ¬ m.live s then .ub else .ok (delete (copy (setLive m a true) a s) s)
  | .assign a s => if m.live a ∧ m.live s then .ok (copy m a s) else .ub
  | .moveAssign a s => if m.live a ∧ m.live s then .ok (delete (copy m a s) s) else .ub
  | .transform a f => if m.live a then .ok (set m a (f (get m a))) else .ub
  | .destroy a => if m.live a then .ok (setLive (delete m a) a false) else .ub

/-- A program. -/
def run {V} : List (Op V) → M V → Cpp (M V)
  | [], m => .ok m
  | o :: os, m => (step m o).bind (run os)

/-- `hana::equal(x, y)`, js.hpp:142-154: `===`, here the equality of `V` (an argument: JavaScript's
`===` on numbers is not reflexive). -/
def equal {V} (eq : Option V → Option V → Bool) (m : M V) (a b : Nat) : Cpp Bool :=
  if m.live a ∧ m.live b then .ok (eq (get m a) (get m b)) else .ub

end Nbdl.JsVal
