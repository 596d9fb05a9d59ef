import Verif.Async.Model
/-! The words of the statements about pipelines in time. -/
namespace Nbdl.Async.Spec
open Promise (Call)
variable {V E X O : Type}

/-- What `Verif.Promise` observes. -/
def plain : Event V E X O → Option (Promise.Event V E)
  | .ran id v => some (.ran id v)
  | .handled id e => some (.handled id e)
  | .finished v => some (.finished v)
  | .stopped => some .stopped
  | .unhandled e => some (.unhandled e)
  | .asked _ => none
  | .crashed _ => none

/-- The same pipeline in which every operation completes at once: the first operation with the first of `cs`, and so
on.  An operation for which there is none does not complete. -/
def atOnce (toE : X → E) : List (Step V E X O) → List (Call V E) → List (Promise.Step V E)
  | [], _ => []
  | .promise id _ :: rest, [] => .promise id (fun _ => []) :: atOnce toE rest []
  | .promise id _ :: rest, c :: cs => .promise id (fun _ => [c]) :: atOnce toE rest cs
  | .func id f :: rest, cs =>
    .promise id (fun v => match f v with | .ok w => [.resolve w] | .error _ => []) :: atOnce toE rest cs
  | .try_ id f :: rest, cs =>
    .promise id (fun v => match f v with | .ok w => [.resolve w] | .error x => [.reject (toE x)]) :: atOnce toE rest cs
  | .tap id f :: rest, cs =>
    .promise id (fun v => match f v with | none => [.resolve v] | some _ => []) :: atOnce toE rest cs
  | .catch_ id accepts _ :: rest, cs => .catch_ id accepts :: atOnce toE rest cs

/-- The number of a step. -/
def stepId : Step V E X O → Nat
  | .promise id _ => id
  | .func id _ => id
  | .try_ id _ => id
  | .tap id _ => id
  | .catch_ id _ _ => id

/-- The operations in a trace, in order. -/
def operations : List (Event V E X O) → List O
  | [] => []
  | .asked o :: t => o :: operations t
  | _ :: t => operations t

/-- The number of promises in a pipeline. -/
def promises : List (Step V E X O) → Nat
  | [] => 0
  | .promise _ _ :: rest => promises rest + 1
  | _ :: rest => promises rest

/-- The last thing a pipeline does. -/
def Last : Event V E X O → Prop
  | .finished _ => True
  | .stopped => True
  | .unhandled _ => True
  | .crashed _ => True
  | _ => False

/-- No handler among the steps accepts the rejection. -/
def NoHandler (steps : List (Step V E X O)) (e : E) : Prop :=
  ∀ id accepts fn, Step.catch_ id accepts fn ∈ steps → accepts e = false

end Nbdl.Async.Spec
