import Verif.JsPromise.Model
/-!
What users of JavaScript promises expect.
-/
namespace Nbdl.JsPromise

/-- The number of runs started by a history. -/
def starts {V} : List (Op V) → Nat
  | [] => 0
  | .start :: os => starts os + 1
  | _ :: os => starts os

/-- JavaScript's code only calls callbacks it was given: those of a run which has started, when `k`
runs have started before. -/
def Given {V} : Nat → List (Op V) → Prop
  | _, [] => True
  | k, .start :: os => Given (k + 1) os
  | k, .resolve i _ :: os => i < k ∧ Given k os
  | k, .reject i _ :: os => i < k ∧ Given k os

/-- The calls of callbacks, in order. -/
def calls {V} : List (Op V) → List (Nat × Bool × V)
  | [] => []
  | .start :: os => calls os
  | .resolve i v :: os => (i, true, v) :: calls os
  | .reject i v :: os => (i, false, v) :: calls os

/-- A run has been settled: one of its callbacks was called. -/
def Settled {V} (i : Nat) (os : List (Op V)) : Prop := ∃ b v, (i, b, v) ∈ calls os

/-- As of a JavaScript promise: at most one delivery for each run. -/
def SettlesOnce {V} (d : List (Nat × Bool × V)) : Prop := (d.map Prod.fst).Nodup

end Nbdl.JsPromise
