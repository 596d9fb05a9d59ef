import Verif.Common
/-!
# Promise pipelines

Models `/repo/include/nbdl/{promise, catch, tap, run_async, run_sync, run_async_loop, pipe}.hpp`,
`/repo/include/nbdl/detail/{promise_join, wrap_promise, match_if}.hpp` and
`/repo/include/nbdl/fwd/detail/promise_join.hpp`.

The effects of a run are recorded in a trace.  `V` is the type of the values handed from step to
step (C++ argument packs), `E` the type of rejections.  Overload resolution on the type of a
rejection (`std::is_invocable`) is a Boolean test on `E`.  Simplification: a promise that completes
later is recorded at the moment it completes; nothing else of the pipeline runs in between.
-/
namespace Nbdl.Promise

/-- A call a promise makes on its resolver. -/
inductive Call (V E : Type) where
  | resolve (v : V)
  | reject (e : E)
  | terminate
  deriving DecidableEq, Repr

/-- What is observed. -/
inductive Event (V E : Type) where
  /-- the function of step `id` is called with `v` -/
  | ran (id : Nat) (v : V)
  /-- the rejection handler `id` is called with `e` -/
  | handled (id : Nat) (e : E)
  /-- the end of the pipe is resolved with `v` -/
  | finished (v : V)
  /-- the end of the pipe is terminated -/
  | stopped
  /-- the end of the pipe is rejected: the program does not compile (run_async.hpp:44-51) -/
  | unhandled (e : E)
  deriving DecidableEq, Repr

/-- One element of a pipeline. -/
inductive Step (V E : Type) where
  /-- `nbdl::promise(fn)`, promise.hpp:16-41.  `calls v` lists the calls that `fn(resolver, v)`
  eventually makes on its resolver. -/
  | promise (id : Nat) (calls : V → List (Call V E))
  /-- a plain function, wrap_promise.hpp:26-51 -/
  | func (id : Nat) (f : V → V)
  /-- `nbdl::tap(fn)`, tap.hpp:16-27 -/
  | tap (id : Nat)
  /-- `nbdl::catch_(fn)`, catch.hpp:21-59; `accepts e` is `std::is_invocable<Fn, decltype(e)>` -/
  | catch_ (id : Nat) (accepts : E → Bool)

/-- What a step sees of the rest of the pipeline. -/
structure Resolver (V E : Type) where
  resolve : V → List (Event V E)
  reject : E → List (Event V E)
  terminate : List (Event V E)

variable {V E : Type}

/-- Performing one call. -/
def Resolver.call (r : Resolver V E) : Call V E → List (Event V E)
  | .resolve v => r.resolve v
  | .reject e => r.reject e
  | .terminate => r.terminate

/-- `resolve(next, args…)`: promise.hpp:29-33, wrap_promise.hpp:36-49, tap.hpp:21-25,
catch.hpp:28-33. -/
def Step.resolve (next : Resolver V E) : Step V E → V → List (Event V E)
  | .promise id calls, v => .ran id v :: (calls v).flatMap next.call
  | .func id f, v => .ran id v :: next.resolve (f v)
  | .tap id, v => .ran id v :: next.resolve v
  | .catch_ _ _, v => next.resolve v

/-- `reject(next, args…)`: promise.hpp:35-40, catch.hpp:35-58. -/
def Step.reject (next : Resolver V E) : Step V E → E → List (Event V E)
  | .catch_ id accepts, e => if accepts e then .handled id e :: next.terminate else next.reject e
  | _, e => next.reject e

/-- `promise_join_t`, fwd/detail/promise_join.hpp:74-110 -/
def join (s : Step V E) (next : Resolver V E) : Resolver V E where
  resolve v := s.resolve next v
  reject e := s.reject next e
  terminate := next.terminate

/-- `promise_join_fn` on a tuple: `hana::fold_right`, detail/promise_join.hpp:26-33 -/
def joinAll (steps : List (Step V E)) (next : Resolver V E) : Resolver V E :=
  steps.foldr join next

/-- A pipe: a step or a tuple of pipes (`nbdl::pipe` is `hana::make_tuple`, pipe.hpp:16). -/
inductive Pipe (V E : Type) where
  | step (s : Step V E)
  | tuple (ps : List (Pipe V E))

mutual
/-- `promise_join_fn`, detail/promise_join.hpp:23-52 -/
def joinPipe : Pipe V E → Resolver V E → Resolver V E
  | .step s, next => join s next
  | .tuple ps, next => joinPipes ps next
/-- its `fold_right` over a tuple -/
def joinPipes : List (Pipe V E) → Resolver V E → Resolver V E
  | [], next => next
  | p :: ps, next => joinPipe p (joinPipes ps next)
end

/-- `promise_end`, run_async.hpp:21-58 (resolve and terminate delete the pipe), and
`promise_end_sync`, run_sync.hpp:22-46. -/
def endAsync : Resolver V E where
  resolve v := [.finished v]
  reject e := [.unhandled e]
  terminate := [.stopped]

/-- `run_async`, run_async.hpp:83-96; `run_sync`, run_sync.hpp:49-60 -/
def run (steps : List (Step V E)) (v : V) : List (Event V E) := (joinAll steps endAsync).resolve v

/-- `run_async` of a pipe of any shape. -/
def runPipe (p : Pipe V E) (v : V) : List (Event V E) := (joinPipe p endAsync).resolve v

/-- Events after which the pipe is deleted. -/
def Event.isEnd : Event V E → Bool
  | .finished _ => true
  | .stopped => true
  | _ => false

/-- How often the pipe is deleted during a run. -/
def deletions (t : List (Event V E)) : Nat := t.countP Event.isEnd

/-- `run_async_loop`, run_async_loop.hpp:21-98, observed for at most `n` passes: the end of the pipe
(`promise_end_loop`, 21-60) resolves its beginning again; termination deletes the pipe. -/
def runLoop (steps : List (Step V E)) : Nat → V → List (Event V E)
  | 0, _ => []
  | n + 1, v =>
    (joinAll steps
      { resolve := fun v' => .finished v' :: runLoop steps n v'
        reject := fun e => [.unhandled e]
        terminate := [.stopped] }).resolve v

/-! ## `match_if` -/

/-- `predicate_promise`, match_if.hpp:28-65: reject with the index when the predicate holds. -/
def predicatePromise {α : Type} (id : Nat) (p : α → Bool) : Step (α × Nat) Nat :=
  .promise id fun (x, i) => if p x then [.reject i] else [.resolve (x, i + 1)]

/-- The pipe of `match_if`, match_if.hpp:107-122.  The unreachable function (110-117) does not
compile when it could be reached. -/
def matchIfPipe {α : Type} (preds : List (α → Bool)) : List (Step (α × Nat) Nat) :=
  preds.mapIdx predicatePromise
    ++ [.func preds.length id, .catch_ (preds.length + 1) (fun _ => true)]

/-- The values assigned to `index` (118), in order. -/
def assigned {α : Type} : List (Event α Nat) → List Nat
  | [] => []
  | .handled _ i :: t => i :: assigned t
  | _ :: t => assigned t

/-- `match_if`, match_if.hpp:100-126: the index, or undefined if it was never assigned. -/
def matchIf {α : Type} (preds : List (α → Bool)) (x : α) : Cpp Nat :=
  match (assigned (run (matchIfPipe preds) (x, 0))).getLast? with
  | some i => .ok i
  | none => .ub

end Nbdl.Promise
