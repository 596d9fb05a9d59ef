import Verif.Common
/-!
# Values a pipeline holds, and values it hands on

Models `/repo/include/nbdl/hold.hpp` (14-37) in the pipelines of `/repo/include/nbdl/run_async.hpp` (21-96) and
`/repo/include/nbdl/run_async_loop.hpp` (21-98), with plain functions (`/repo/include/nbdl/detail/wrap_promise.hpp` 26-51)
and `tap` (`/repo/include/nbdl/tap.hpp` 16-27): where the values live that are handed from step to step.  All of them are
handed on by reference (`std::forward`, `/repo/include/nbdl/fwd/detail/promise_join.hpp` 91-95).  What a function returns
is a temporary of the call of its step, `resolver.resolve(fn(…))` (wrap_promise.hpp:45), and is gone when that call
returns; what is held is a member of the promise, and so a part of the pipeline on the heap (hold.hpp:18-20,
run_async.hpp:70 and 90-92).

Simplifications.
* Each step hands one value on; a function that returns nothing hands on a value of its own.
* A function takes its argument by reference.
* A promise starts an operation, which keeps the reference that the promise was given (as in
  `/repo/test/nbdl/websocket_api/client_endpoint.cpp` 100-128), completes once or never, and returns to the caller before
  it completes.  A rejection ends the pipeline as a termination does (`Verif.Async` says who is told); it is not told apart.
* `hold_lazy` is left out, see `Verif.HoldLazy`.
-/
namespace Nbdl.Held

variable {V : Type}

/-- What a function gives back: a value, or a reference to its argument. -/
inductive Ret (V : Type) where
  | fresh (v : V)
  | same

/-- A step. -/
inductive Step (V : Type) where
  /-- `nbdl::hold(value)`, hold.hpp:29-35 -/
  | hold (init : V)
  /-- a plain function, wrap_promise.hpp:32-48: what it leaves in its argument, and what it returns -/
  | func (change : V → V) (ret : V → Ret V)
  /-- `nbdl::tap(fn)`, tap.hpp:16-27 -/
  | tap (change : V → V)
  /-- `nbdl::promise(fn)`, promise.hpp:16-48, where `fn` starts an operation -/
  | op

/-- What is referred to: the value of the `hold` at a step, or a temporary. -/
inductive Arg (V : Type) where
  | held (step : Nat)
  | temp (v : V)

/-- An access to a held value: by which step, by which step it is held, what was found and what was left. -/
structure Touch (V : Type) where
  who : Nat
  cell : Nat
  saw : V
  left : V
  deriving DecidableEq, Repr

/-- The values held, by step (hold.hpp:18). -/
abbrev Cells (V : Type) := Nat → Option V

/-- The values as they are when the pipeline is made: hold.hpp:33-34 and run_async.hpp:90-92, where the pipeline is copied
or moved to the heap. -/
def cells (steps : List (Step V)) : Cells V := fun i =>
  match steps[i]? with
  | some (.hold v) => some v
  | _ => none

/-- A value is looked at and changed through a reference to it. -/
def access (m : Cells V) (who : Nat) (a : Arg V) (change : V → V) : Cpp (Cells V × Arg V × List (Touch V)) :=
  match a with
  | .temp v => .ok (m, .temp (change v), [])
  | .held i =>
    match m i with
    | none => .ub
    | some v => .ok (fun j => if j = i then some (change v) else m j, .held i, [⟨who, i, v, change v⟩])

/-- What a pass comes to: an operation, which was given a reference, or the end. -/
inductive Out (V : Type) where
  | waiting (step : Nat) (a : Arg V)
  | ended (a : Arg V)

/-- What a function hands on: promise_join.hpp:91-95. -/
def handOn (a : Arg V) : Ret V → Arg V
  | .fresh w => .temp w
  | .same => a

/-- The value referred to. -/
def look (m : Cells V) : Arg V → Cpp V
  | .temp v => .ok v
  | .held i =>
    match m i with
    | none => .ub
    | some v => .ok v

/-- `resolve` of the steps that follow, the first of which is number `i`, promise_join.hpp:91-95. -/
def pass : List (Step V) → Nat → Cells V → Arg V → Cpp (Cells V × Out V × List (Touch V))
  | [], _, m, a => .ok (m, .ended a, [])
  | .hold _ :: rest, i, m, _ => pass rest (i + 1) m (.held i)
  | .op :: _, i, m, a => .ok (m, .waiting i a, [])
  | .tap f :: rest, i, m, a =>
    match access m i a f with
    | .ub => .ub
    | .ok (m', a', t) => (pass rest (i + 1) m' a').map fun r => (r.1, r.2.1, t ++ r.2.2)
  | .func f g :: rest, i, m, a =>
    match look m a, access m i a f with
    | .ok v, .ok (m', a', t) => (pass rest (i + 1) m' (handOn a' (g v))).map fun r => (r.1, r.2.1, t ++ r.2.2)
    | _, _ => .ub

/-- The pipeline between two completions: what it holds, what it waits for, and what was done to what it holds. -/
structure St (V : Type) where
  cells : Cells V
  /-- the step that started an operation, and what the operation refers to; a temporary is gone by now -/
  wait : Option (Nat × Option Nat)
  log : List (Touch V)

/-- What is left of a reference when the call returns. -/
def Arg.kept : Arg V → Option Nat
  | .held i => some i
  | .temp _ => none

/-- A pipeline, run by `run_async` or by `run_async_loop`. -/
structure Config (V : Type) where
  steps : List (Step V)
  loop : Bool

/-- The end: the pipeline is deleted (run_async.hpp:29-42), or begins again (run_async_loop.hpp:38-43).  A pass that meets
no operation would be followed by the same without end, one call inside the other: the stack does not suffice. -/
def finish (c : Config V) (log : List (Touch V)) : Cells V × Out V × List (Touch V) → Cpp (St V)
  | (m, .waiting i a, t) => .ok ⟨m, some (i, a.kept), log ++ t⟩
  | (m, .ended a, t) =>
    if c.loop then
      match pass c.steps 0 m a with
      | .ok (m', .waiting i a', t') => .ok ⟨m', some (i, a'.kept), log ++ t ++ t'⟩
      | _ => .ub
    else .ok ⟨m, none, log ++ t⟩

/-- `run_async(pipeline, v)` and `run_async_loop(pipeline, v)`, run_async.hpp:83-96 and run_async_loop.hpp:83-96. -/
def start (c : Config V) (v : V) : Cpp (St V) :=
  (pass c.steps 0 (cells c.steps) (.temp v)).bind (finish c [])

/-- How the operation goes on. -/
inductive Next (V : Type) where
  /-- it resolves with a value of its own -/
  | fresh (v : V)
  /-- it resolves with what it was given -/
  | same
  /-- it ends the pipeline -/
  | stop

/-- An operation completes: what it does to what it was given, if it looks at it, and how it goes on. -/
structure Done (V : Type) where
  change : Option (V → V)
  next : Next V

/-- The operation uses what it was given: a temporary is no more. -/
def use (m : Cells V) (who : Nat) : Option Nat → Option (V → V) → Cpp (Cells V × List (Touch V))
  | _, none => .ok (m, [])
  | none, some _ => .ub
  | some i, some f => (access m who (.held i) f).map fun r => (r.1, r.2.2)

/-- A completion; there is none while no operation is under way. -/
def settle (c : Config V) (s : St V) (d : Done V) : Cpp (St V) :=
  match s.wait with
  | none => .ok s
  | some (i, a) =>
    (use s.cells i a d.change).bind fun r =>
      match d.next, a with
      | .stop, _ => .ok ⟨r.1, none, s.log ++ r.2⟩
      | .fresh v, _ => (pass (c.steps.drop (i + 1)) (i + 1) r.1 (.temp v)).bind (finish c (s.log ++ r.2))
      | .same, none => .ub
      | .same, some j => (pass (c.steps.drop (i + 1)) (i + 1) r.1 (.held j)).bind (finish c (s.log ++ r.2))

/-- Completions one after the other. -/
def settles (c : Config V) : List (Done V) → St V → Cpp (St V)
  | [], s => .ok s
  | d :: ds, s => (settle c s d).bind (settles c ds)

/-- A run. -/
def run (c : Config V) (v : V) (ds : List (Done V)) : Cpp (St V) := (start c v).bind (settles c ds)

/-! ## Several runs of one pipeline -/

/-- What a program does with a pipeline it keeps. -/
inductive Ev (V : Type) where
  /-- it is run once more -/
  | start (v : V)
  /-- an operation of a run completes -/
  | settle (run : Nat) (d : Done V)

/-- The runs so far; each has a copy of the pipeline, run_async.hpp:73-75 and 90-92. -/
def step (c : Config V) (rs : List (St V)) : Ev V → Cpp (List (St V))
  | .start v => (start c v).map fun s => rs ++ [s]
  | .settle r d =>
    match rs[r]? with
    | none => .ok rs
    | some s => (settle c s d).map fun s' => rs.set r s'

def exec (c : Config V) : List (Ev V) → List (St V) → Cpp (List (St V))
  | [], rs => .ok rs
  | e :: es, rs => (step c rs e).bind (exec c es)

/-! ## Pipelines kept in a variable -/

/-- A step of a pipeline in a variable, by what running it does to it.  `F` are functions together with what they have
captured. -/
inductive Kept (F V : Type) where
  /-- a function, a promise, a `tap` -/
  | plain (f : F)
  /-- `hold(v)` -/
  | hold (v : V)
  /-- `hold_lazy(f)`; `none`: `f` has been moved from -/
  | lazy (f : Option F)

/-- How it is run. -/
inductive How where
  /-- `run_sync(p)`, run_sync.hpp:50-58: `p` is an lvalue, and `promise_join` is given lvalues that are not const -/
  | sync
  /-- `run_async(p)` or `run_async_loop(p)`: `InputPromise const&`, run_async.hpp:73-75 -/
  | async
  deriving DecidableEq, Repr

/-- `promise_join` of one step given as an lvalue, detail/promise_join.hpp:34-52: the step in the pipeline that is run, and
what is left in the variable.  A promise is copied, and so is a function (wrap_promise.hpp:28-38).  The function of a
`hold_lazy` is moved from (hold_lazy.hpp:88-94), which a `const` one cannot be: `none`, it does not compile. -/
def joinStep {F V : Type} : How → Kept F V → Option (Kept F V × Kept F V)
  | _, .plain f => some (.plain f, .plain f)
  | _, .hold v => some (.hold v, .hold v)
  | .sync, .lazy f => some (.lazy f, .lazy none)
  | .async, .lazy _ => none

/-- `promise_join` of the pipeline, detail/promise_join.hpp:26-33. -/
def join {F V : Type} (h : How) : List (Kept F V) → Option (List (Kept F V) × List (Kept F V))
  | [] => some ([], [])
  | k :: ks =>
    match joinStep h k, join h ks with
    | some (r, l), some (rs, ls) => some (r :: rs, l :: ls)
    | _, _ => none

/-- The pipelines that are run when the variable is used again and again. -/
def again {F V : Type} : List How → List (Kept F V) → Option (List (List (Kept F V)))
  | [], _ => some []
  | h :: hs, p =>
    match join h p with
    | none => none
    | some (r, l) =>
      match again hs l with
      | none => none
      | some rs => some (r :: rs)

end Nbdl.Held
