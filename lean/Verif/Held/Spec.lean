import Verif.Held.Model
/-!
# What a held value goes through
-/
namespace Nbdl.Held
variable {V : Type}

/-- From `v` to `w`: the first access finds `v`, each other one what the one before it has left, and the last one leaves
`w`. -/
def Chained : V → List (Touch V) → V → Prop
  | v, [], w => v = w
  | v, t :: ts, w => t.saw = v ∧ Chained t.left ts w

/-- The accesses to what step `i` holds. -/
def touches (i : Nat) (log : List (Touch V)) : List (Touch V) := log.filter fun t => t.cell = i

/-- What a step may do to a value. -/
def Does (steps : List (Step V)) (ds : List (Done V)) (who : Nat) (v w : V) : Prop :=
  (∃ f, steps[who]? = some (.tap f) ∧ w = f v) ∨ (∃ f g, steps[who]? = some (.func f g) ∧ w = f v) ∨
  (steps[who]? = some .op ∧ ∃ d ∈ ds, ∃ f, d.change = some f ∧ w = f v)

/-- Does step `i` hold a value? -/
def Holds (steps : List (Step V)) (i : Nat) : Prop := ∃ v, steps[i]? = some (.hold v)

/-- The value held by step `j` is the one which step `i` may be given: it is the nearest before it; in a loop, if there is
none before it, the last one. -/
def Nearest (c : Config V) (j i : Nat) : Prop :=
  Holds c.steps j ∧ ((j < i ∧ ∀ k, j < k → k < i → ¬ Holds c.steps k) ∨
    (c.loop = true ∧ (∀ k, k < i → ¬ Holds c.steps k) ∧ ∀ k, j < k → ¬ Holds c.steps k))

/-- Whatever is given to an operation is held by the pipeline: `held` says whether what comes in is. -/
def Good : Bool → List (Step V) → Prop
  | _, [] => True
  | _, .hold _ :: rest => Good true rest
  | h, .tap _ :: rest => Good h rest
  | h, .func _ g :: rest => ((∀ v, g v = .same) → Good h rest) ∧ ((¬ ∀ v, g v = .same) → Good false rest)
  | h, .op :: rest => h = true ∧ Good false rest

/-- The completions of the operations of run `r`, when `n` runs have been started: those that come when it has been. -/
def doneBy (r : Nat) : Nat → List (Ev V) → List (Done V)
  | _, [] => []
  | n, .start _ :: es => doneBy r (n + 1) es
  | n, .settle k d :: es => if k = r ∧ r < n then d :: doneBy r n es else doneBy r n es

/-- What the runs are started with, in order. -/
def given : List (Ev V) → List V
  | [] => []
  | .start v :: es => v :: given es
  | .settle _ _ :: es => given es

end Nbdl.Held
