import Verif.Path.Layers
/-!
# Paths that go on (C44)

`match_path_append` takes a prefix whose own lookup compiles.  Here the prefix is any: the store reached
is not opened in between.
-/
namespace Nbdl.Path

variable {K V N A : Type} [DecidableEq K] (ops : Ops K V N A)

/-- The store or value some keys lead to, before it is opened; a value that is no Store ends the way. -/
def along (s : Store K V N) : List K → Option (Store K V N)
  | [] => some s
  | k :: p => (matchKey ops s k).bind fun v => if isStore v then along v p else some v

/-- A path that goes on is looked up in the store the prefix leads to, whether or not the prefix alone
can be looked up. -/
theorem match_path_stepwise (s : Store K V N) (p q : List K) (hs : isStore s = true) :
    matchPath ops s (p ++ q) =
      (along ops s p).bind fun v => if isStore v then matchPath ops v q else some v := by
  induction p generalizing s with
  | nil => simp [along, hs]
  | cons k p ih =>
    show matchPath ops s (k :: (p ++ q)) = _
    rw [matchPath, along]
    cases matchKey ops s k with
    | none => rfl
    | some v =>
      by_cases hv : isStore v = true
      · simp only [Option.bind_some, if_pos hv]; exact ih v hv
      · simp [if_neg hv]

/-- What the path alone finds: the store it leads to, opened. -/
theorem match_path_opens (s : Store K V N) (p : List K) (hs : isStore s = true) :
    matchPath ops s p = (along ops s p).bind matchUnit := by
  have := match_path_stepwise ops s p [] hs
  rw [List.append_nil] at this
  rw [this]
  congr; funext v
  rw [matchPath_nil, ite_unit]

/-- Exactly when a longer path can be looked up although its prefix cannot: the prefix leads to a store
which cannot be opened (an unordered map), and there the rest is found. -/
theorem prefix_rejected_iff (s : Store K V N) (p q : List K) (hs : isStore s = true) :
    matchPath ops s p = none ∧ matchPath ops s (p ++ q) ≠ none ↔
      ∃ v, along ops s p = some v ∧ matchUnit v = none ∧ matchPath ops v q ≠ none := by
  rw [match_path_stepwise ops s p q hs, match_path_opens ops s p hs]
  cases along ops s p with
  | none => simp
  | some v =>
    by_cases hv : isStore v = true
    · simp [hv]
    · have := matchUnit_plain (by simpa using hv : isStore v = false)
      simp [this]

/-- A member that is an unordered map: the path to it is rejected, the path to its row is not. -/
example : (let s : Store Nat Nat Nat := .state [(1, .table [(2, .value 3)])]
    (matchPath exOps s [1]).isNone ∧ (along exOps s [1]).isSome
    ∧ (matchPath exOps s [1, 2]).isSome) := by decide +kernel

/-- A path on which looking up is rejected altogether. -/
example : (let s : Store Nat Nat Nat := .state [(1, .table [(2, .value 3)])]
    (matchPath exOps s [4]).isNone ∧ (along exOps s [4]).isNone) := by decide +kernel

end Nbdl.Path
