import Verif.Common
/-!
# Promises written in JavaScript

Models `/repo/include/nbdl/macros/NBDL_JS_PROMISE.hpp`: the macros which give JavaScript code or a C
function the values captured by name, and the callbacks `resolve` and `reject`.

Simplifications.
* A captured C++ variable and the JavaScript variable named after it are both known by that name;
  `ρ` gives the values of the C++ variables.
* A handle is the value it stands for (the registry of `js::val` is the subject of `Verif.JsVal`).
* A use of a macro with a number of arguments for which no macro is defined does not compile: `none`.
-/
namespace Nbdl.JsPromise

/-- An argument of `EM_ASM_` or of the C function: a callback's handle, or a captured value's. -/
inductive Arg (V : Type)
  | resolve
  | reject
  | value (v : V)
deriving DecidableEq, Repr

/-- `NBDL_DETAIL_JS_PROMISE_COLLECT_ARGS` (65–83: one to nine names, in order) with
`collect_js_vals`, 46–50. -/
def collect {V} (ρ : String → V) (ns : List String) : List V := ns.map ρ

/-- `collect_js_vals_reverse`, 52–59. -/
def collectReverse {V} (ρ : String → V) (ns : List String) : List V := (ns.map ρ).reverse

/-- The indices into `input_vals` in `NBDL_DETAIL_JS_PROMISE_ARG_HANDLEn`, 88–106: `n` to one. -/
def argHandleIndices : Nat → List Nat
  | 0 => []
  | n + 1 => n :: argHandleIndices n

/-- The values at some indices of the `std::array` `input_vals`; outside of it is undefined. -/
def pick {V} (vals : List V) : List Nat → Cpp (List V)
  | [] => .ok []
  | i :: is =>
    match vals[i]? with
    | none => .ub
    | some v => (pick vals is).map (v :: ·)

/-- `NBDL_DETAIL_JS_PROMISE_INIT_CAPTUREn`, 113–128: a JavaScript variable and the number of the
argument it is initialized with. -/
def initCaptures : List String → List (String × Nat)
  | [] => []
  | n :: ns => (n, ns.length + 2) :: initCaptures ns

/-- The arguments after the captures are replaced by handles, 138, 146–147 and 158–161: the two
callbacks first. -/
def arguments {V} (vals : List V) (n : Nat) : Cpp (List (Arg V)) :=
  (pick vals (argHandleIndices n)).map fun vs => .resolve :: .reject :: vs.map .value

/-- JavaScript's variables: `none` is not declared, `some none` is undefined. -/
abbrev Env (V : Type) := String → Option (Option (Arg V))

/-- `var NAME = Module.NBDL_DETAIL_JS_GET($k);` one after the other. -/
def declare {V} (args : List (Arg V)) : List (String × Nat) → Env V → Env V
  | [], e => e
  | (n, k) :: cs, e => declare args cs fun m => if m = n then some (args[k]?) else e m

/-- What the given JavaScript function is called with, 137 and 144–145: the first and the second
argument, in the scope of the declared variables. -/
structure Call (V : Type) where
  arg0 : Option (Arg V)
  arg1 : Option (Arg V)
  env : Env V

/-- `NBDL_JS_PROMISE_WITH_CAPTURE(code, ns…)`, 176–180 with 141–154: the call of `code` when the
promise runs. -/
def withCapture {V} (ρ : String → V) (ns : List String) : Option (Cpp (Call V)) :=
  if 1 ≤ ns.length ∧ ns.length ≤ 8 then
    some ((arguments (collect ρ ns) ns.length).map fun args =>
      ⟨args[0]?, args[1]?, declare args (initCaptures ns) fun _ => none⟩)
  else none

/-- `NBDL_JS_PROMISE(code)`, 167–171 with 134–139. -/
def noCapture {V} : Call V := ⟨some .resolve, some .reject, fun _ => none⟩

/-- `NBDL_JS_PROMISE_C_FUNC(fn, ns…)`, 187–192 with 156–162: the arguments of `fn`. -/
def cFunc {V} (ρ : String → V) (ns : List String) : Option (Cpp (List (Arg V))) :=
  if 1 ≤ ns.length ∧ ns.length ≤ 9 then some (arguments (collectReverse ρ ns) ns.length) else none

/-! ## The callbacks' lifetime: `make_promise`, 20–44 -/

/-- What JavaScript's code and the pipeline do. -/
inductive Op (V : Type)
  /-- the promise of a pipeline runs, 22–43; runs are numbered from zero -/
  | start
  /-- JavaScript calls the first callback of run `i`, 28–32 -/
  | resolve (i : Nat) (v : V)
  /-- JavaScript calls the second callback of run `i`, 34–38 -/
  | reject (i : Nat) (v : V)
deriving DecidableEq, Repr

/-- The pairs of callbacks made with `new` and not deleted, what each run's callbacks hold as
`delete_me`, and what was delivered to the pipeline of each run (`true`: resolved). -/
structure S (V : Type) where
  runs : Nat
  live : List Nat
  deleteMe : Nat → Option Nat
  delivered : List (Nat × Bool × V)

/-- Before the first run. -/
def init {V} : S V := ⟨0, [], fun _ => none, []⟩

/-- `delete p`: of a null pointer it does nothing. -/
def deletePair (live : List Nat) : Option Nat → List Nat
  | none => live
  | some p => live.erase p

/-- A callback of run `i` is called, 28–38: a call of one that does not exist is undefined
(fwd/js.hpp:101-103). -/
def settle {V} (s : S V) (i : Nat) (b : Bool) (v : V) : Cpp (S V) :=
  if i ∈ s.live then
    .ok { s with live := deletePair s.live (s.deleteMe i), delivered := s.delivered ++ [(i, b, v)] }
  else .ub

/-- One step.  The two lambdas copy `delete_me`, which is null at that time (26, 28, 34); it is
assigned afterwards (40). -/
def step {V} (s : S V) : Op V → Cpp (S V)
  | .start =>
    .ok { runs := s.runs + 1, live := s.live ++ [s.runs],
          deleteMe := fun i => if i = s.runs then none else s.deleteMe i,
          delivered := s.delivered }
  | .resolve i v => settle s i true v
  | .reject i v => settle s i false v

/-- A history. -/
def run {V} : List (Op V) → S V → Cpp (S V)
  | [], s => .ok s
  | o :: os, s => (step s o).bind (run os)

end Nbdl.JsPromise
