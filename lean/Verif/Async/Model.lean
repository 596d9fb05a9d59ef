import Verif.Promise.Model
/-!
# Pipelines in time, and exceptions

Models the same files as `Verif.Promise`, and `/repo/include/nbdl/try.hpp`, without the simplification made there that
a promise completes at once: a promise starts an operation, and the pipeline goes on when the operation completes.
Functions may throw.  `promise_t::resolve` (`/repo/include/nbdl/promise.hpp:30-34`), `catch_t::resolve` and
`catch_t::reject` (`/repo/include/nbdl/catch.hpp:28-33, 35-47`) are `noexcept`: an exception that would leave one of them
ends the process (`std::terminate`).  All steps of a pipeline are one or the other (`wrap_promise`,
`/repo/include/nbdl/detail/wrap_promise.hpp:26-51`, makes a promise of a plain function).

Simplifications.
* `V` are the values handed on, `E` the rejections, `X` the exceptions, `O` the operations that promises start.
* An operation completes once, or never; a promise that completes within its own call is one whose operation completes
  immediately.
* The function of a promise does not throw.
* Lazily made promises (`make_lazy_holder_tag`) are left out, see `Verif.HoldLazy`.
-/
namespace Nbdl.Async
open Promise (Call)

variable {V E X O : Type}

inductive Step (V E X O : Type) where
  /-- `nbdl::promise(fn)`, promise.hpp:16-48: `fn(resolver, v)` starts an operation -/
  | promise (id : Nat) (start : V → O)
  /-- a plain function, wrap_promise.hpp:26-51 -/
  | func (id : Nat) (f : V → Except X V)
  /-- `nbdl::try_(fn)`, try.hpp:18-47 -/
  | try_ (id : Nat) (f : V → Except X V)
  /-- `nbdl::tap(fn)`, tap.hpp:16-27; `none`: `fn` returns -/
  | tap (id : Nat) (f : V → Option X)
  /-- `nbdl::catch_(fn)`, catch.hpp:21-59; `accepts` as in `Verif.Promise`; `none`: `fn` returns -/
  | catch_ (id : Nat) (accepts : E → Bool) (fn : E → Option X)

/-- What is observed: as in `Verif.Promise`, and … -/
inductive Event (V E X O : Type) where
  | ran (id : Nat) (v : V)
  | handled (id : Nat) (e : E)
  /-- an operation is started -/
  | asked (o : O)
  | finished (v : V)
  | stopped
  | unhandled (e : E)
  /-- `std::terminate` -/
  | crashed (x : X)
  deriving DecidableEq, Repr

/-- The pipeline waits for an operation, after which `rest` is to be done; or it is over. -/
inductive St (V E X O : Type) where
  | waiting (rest : List (Step V E X O))
  | over

/-- `promise_join_t::reject` on the steps that follow (fwd/detail/promise_join.hpp:97-101, promise.hpp:36-41,
catch.hpp:35-47, run_async.hpp:44-51) -/
def rejectTo : List (Step V E X O) → E → List (Event V E X O)
  | [], e => [.unhandled e]
  | .catch_ id accepts fn :: rest, e =>
    if accepts e then
      .handled id e :: (match fn e with
        | none => [.stopped]
        | some x => [.crashed x])
    else rejectTo rest e
  | _ :: rest, e => rejectTo rest e

/-- `promise_join_t::resolve` on the steps that follow (fwd/detail/promise_join.hpp:91-95) up to the next operation.
`toE` says with what `try_` rejects an exception (try.hpp:39-42). -/
def advance (toE : X → E) : List (Step V E X O) → V → St V E X O × List (Event V E X O)
  | [], v => (.over, [.finished v])
  | .promise id start :: rest, v => (.waiting rest, [.ran id v, .asked (start v)])
  | .func id f :: rest, v =>
    match f v with
    | .ok w => ((advance toE rest w).1, .ran id v :: (advance toE rest w).2)
    | .error x => (.over, [.ran id v, .crashed x])
  | .try_ id f :: rest, v =>
    match f v with
    | .ok w => ((advance toE rest w).1, .ran id v :: (advance toE rest w).2)
    | .error x => (.over, .ran id v :: rejectTo rest (toE x))
  | .tap id f :: rest, v =>
    match f v with
    | none => ((advance toE rest v).1, .ran id v :: (advance toE rest v).2)
    | some x => (.over, [.ran id v, .crashed x])
  | .catch_ _ _ _ :: rest, v => advance toE rest v

/-- The operation completes: the promise calls its resolver. -/
def settle (toE : X → E) : St V E X O → Call V E → St V E X O × List (Event V E X O)
  | .waiting rest, .resolve v => advance toE rest v
  | .waiting rest, .reject e => (.over, rejectTo rest e)
  | .waiting _, .terminate => (.over, [.stopped])
  | .over, _ => (.over, [])

/-- The completions of operations, one after the other. -/
def settles (toE : X → E) : St V E X O → List (Call V E) → St V E X O × List (Event V E X O)
  | s, [] => (s, [])
  | s, c :: cs => ((settles toE (settle toE s c).1 cs).1, (settle toE s c).2 ++ (settles toE (settle toE s c).1 cs).2)

/-- `run_async`, run_async.hpp:83-96, and the completions that follow -/
def run (toE : X → E) (steps : List (Step V E X O)) (v : V) (cs : List (Call V E)) :
    St V E X O × List (Event V E X O) :=
  ((settles toE (advance toE steps v).1 cs).1, (advance toE steps v).2 ++ (settles toE (advance toE steps v).1 cs).2)

/-! ## Exceptions by their types -/

/-- The classes of exceptions, `a` derived from `b`. -/
structure Classes (T : Type) where
  derives : T → T → Bool
  /-- `std::exception` and `std::runtime_error` -/
  exception : T
  runtimeError : T

/-- The type of the rejection that `try_` makes of an exception of type `t`: `catch (std::exception const& e)` rejects
with `e`, `catch (...)` with a `std::runtime_error` (try.hpp:39-42). -/
def rejection {T : Type} (c : Classes T) (t : T) : T := if c.derives t c.exception then c.exception else c.runtimeError

/-- `std::is_invocable<RejectionHandler, Args...>` (catch.hpp:39) for a handler that takes a reference to `h`: the static
type of the rejection must be derived from `h`. -/
def takes {T : Type} (c : Classes T) (h : T) (static : T) : Bool := c.derives static h

end Nbdl.Async
