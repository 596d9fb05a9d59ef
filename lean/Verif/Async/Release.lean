import Verif.Async.Model
/-!
# The memory of a pipeline

`/repo/include/nbdl/run_async.hpp` makes a pipeline with `new` (88-92), and its last step deletes it (16-58): all of
its functions, and the resolvers which operations were given (references to the next step,
`/repo/include/nbdl/fwd/detail/promise_join.hpp:91-95`), are part of it.  Here operations may complete any number of times
and in any order, which `Verif.Async` leaves out.

Simplifications, besides those of `Verif.Async`: an operation keeps nothing of the pipeline but its resolver, and does
not look at it after the completion.
-/
namespace Nbdl.Async
open Promise (Call)

variable {V E X O : Type}

inductive Status where
  /-- in memory, waiting for operations -/
  | running
  /-- deleted, run_async.hpp:32-36, 38-42, 53-57 -/
  | released
  /-- `std::terminate` has ended the process -/
  | dead
  /-- a rejection has come to the end: such a pipeline does not compile, run_async.hpp:44-51 -/
  | unhandled
  deriving DecidableEq, Repr

/-- What is left when a pipeline is over, by what it did last. -/
def statusOf : List (Event V E X O) → Status
  | [] => .running
  | [.finished _] => .released
  | [.stopped] => .released
  | [.crashed _] => .dead
  | [.unhandled _] => .unhandled
  | _ :: es => statusOf es

/-- A pipeline: for each operation started so far the steps that its resolver leads to, and the operations which have
completed, in that order. -/
structure Pipe (V E X O : Type) where
  asked : List (List (Step V E X O))
  done : List Nat
  status : Status

/-- The pipeline went on, up to an operation or its end. -/
def Pipe.went (p : Pipe V E X O) (r : St V E X O × List (Event V E X O)) : Pipe V E X O :=
  match r.1 with
  | .waiting rest => ⟨p.asked ++ [rest], p.done, p.status⟩
  | .over => ⟨p.asked, p.done, statusOf r.2⟩

/-- `run_async`, run_async.hpp:83-96. -/
def launch (toE : X → E) (steps : List (Step V E X O)) (v : V) : Pipe V E X O × List (Event V E X O) :=
  (Pipe.went ⟨[], [], .running⟩ (advance toE steps v), (advance toE steps v).2)

/-- The operation number `i` completes: it calls its resolver, which no longer exists if the pipeline has been
deleted.  An operation that has not been started does not complete; of a pipeline that does not compile nothing is
said. -/
def complete (toE : X → E) (p : Pipe V E X O) (i : Nat) (c : Call V E) : Cpp (Pipe V E X O × List (Event V E X O)) :=
  match p.asked[i]? with
  | none => .ok (p, [])
  | some rest =>
    match p.status with
    | .released => .ub
    | .dead | .unhandled => .ok (p, [])
    | .running => .ok (Pipe.went ⟨p.asked, p.done ++ [i], p.status⟩ (settle toE (.waiting rest) c),
        (settle toE (.waiting rest) c).2)

/-- Completions one after the other. -/
def completes (toE : X → E) (p : Pipe V E X O) : List (Nat × Call V E) → Cpp (Pipe V E X O × List (Event V E X O))
  | [] => .ok (p, [])
  | (i, c) :: h => (complete toE p i c).bind fun r => (completes toE r.1 h).map fun r' => (r'.1, r.2 ++ r'.2)

/-- A pipeline is run, and operations complete. -/
def live (toE : X → E) (steps : List (Step V E X O)) (v : V) (h : List (Nat × Call V E)) :
    Cpp (Pipe V E X O × List (Event V E X O)) :=
  (completes toE (launch toE steps v).1 h).map fun r => (r.1, (launch toE steps v).2 ++ r.2)

end Nbdl.Async
