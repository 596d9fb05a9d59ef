import Verif.Common
/-!
# Values held by asynchronous pipelines

Models `/repo/include/nbdl/hold_lazy.hpp` (`lazy_holder`, 29–73) inside the pipelines of
`/repo/include/nbdl/run_async.hpp` (`promise_end` 21–58, `run_async` 83–96) and
`/repo/include/nbdl/run_async_loop.hpp` (21–60, 85–98): a value which is made when the pipeline gets
to its step, is kept in the pipeline and resolves the step later, such as a connection.

Simplifications.
* A pipeline is its steps in order; all of them are parts of one object on the heap, which is deleted
  as a whole (run_async.hpp:32-36, 38-42, 53-57).
* Of other steps only matters that they go on at once: `func`.
* Values passed from step to step are left out; a held value is known by its step and a serial number.
* A held value can call its resolver as long as it exists; what is destroyed calls nothing.
-/
namespace Nbdl.HoldLazy

/-- A step. -/
inductive Kind
  /-- a function, a `tap` or a `hold`: goes on at once -/
  | func
  /-- `hold_lazy(f)`; `now`: `f` calls the resolver before it returns -/
  | lazy (now : Bool)
deriving DecidableEq, Repr

/-- A pipeline given to `run_async` or `run_async_loop`. -/
structure Config where
  steps : List Kind
  loop : Bool
deriving DecidableEq, Repr

/-- The pipeline: whether it still exists, what its holders hold (`engaged`), and the values
constructed and destroyed so far. -/
structure S where
  alive : Bool
  held : List (Nat × Nat)
  made : List (Nat × Nat)
  destroyed : List (Nat × Nat)
  deriving DecidableEq, Repr

/-- `new shared_end_pipe(…)`, run_async.hpp:90-92: no holder is engaged, hold_lazy.hpp:33-37. -/
def init : S := ⟨true, [], [], []⟩

/-- `new(std::addressof(value)) T(f(…)); engaged = true;`, hold_lazy.hpp:59-64, after `f` has returned:
constructs a value in the holder.  Nothing is done about a value that is there already. -/
def put (s : S) (i : Nat) : Cpp S :=
  if s.alive then
    .ok { s with held := (i, s.made.length) :: s.held.filter (·.1 ≠ i),
                 made := s.made ++ [(i, s.made.length)] }
  else .ub

/-- `delete end`, run_async.hpp:35, 41, 56 and run_async_loop.hpp:58: the engaged holders destroy their
values, hold_lazy.hpp:51-57. -/
def deletePipe (s : S) : Cpp S :=
  if s.alive then .ok { s with alive := false, held := [], destroyed := s.destroyed ++ s.held }
  else .ub

/-- Resolving the steps `ks`, the first of which is number `i`. -/
def resolveFrom (onEnd : S → Cpp S) : List Kind → Nat → S → Cpp S
  | [], _, s => onEnd s
  | .func :: ks, i, s => resolveFrom onEnd ks (i + 1) s
  | .lazy false :: _, i, s => put s i
  | .lazy true :: ks, i, s => (resolveFrom onEnd ks (i + 1) s).bind (put · i)

/-- The end of a looping pipeline, run_async_loop.hpp:39-44: from the beginning, observed for at most
`n` passes that wait for nothing. -/
def loopEnd (steps : List Kind) : Nat → S → Cpp S
  | 0, s => .ok s
  | n + 1, s => resolveFrom (loopEnd steps n) steps 0 s

/-- The end of a pipeline. -/
def onEnd (c : Config) (n : Nat) : S → Cpp S := if c.loop then loopEnd c.steps n else deletePipe

/-- What happens after the start. -/
inductive Op
  /-- the value held by step `i` resolves its step -/
  | fire (i : Nat)
  /-- the value held by step `i` terminates the pipeline -/
  | stop (i : Nat)
deriving DecidableEq, Repr

/-- Does step `i` hold a value? -/
def holds (s : S) (i : Nat) : Bool := s.held.any (·.1 = i)

/-- One operation. -/
def step (c : Config) (n : Nat) (s : S) : Op → Cpp S
  | .fire i => if holds s i then resolveFrom (onEnd c n) (c.steps.drop (i + 1)) (i + 1) s else .ok s
  | .stop i => if holds s i then deletePipe s else .ok s

/-- A history. -/
def exec (c : Config) (n : Nat) : List Op → S → Cpp S
  | [], s => .ok s
  | o :: os, s => (step c n s o).bind (exec c n os)

/-- `run_async(pipeline)` and what follows. -/
def run (c : Config) (n : Nat) (os : List Op) : Cpp S :=
  (resolveFrom (onEnd c n) c.steps 0 init).bind (exec c n os)

end Nbdl.HoldLazy
