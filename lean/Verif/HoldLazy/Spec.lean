import Verif.HoldLazy.Model
/-!
What is expected of held values.
-/
namespace Nbdl.HoldLazy

/-- Every value is destroyed exactly as often as it was made; each was made once. -/
def Balanced (s : S) : Prop := s.made.Nodup ∧ ∀ x, s.destroyed.count x = s.made.count x

/-- No value is lost: as long as the pipeline exists it holds everything it made, and when it is gone
everything has been destroyed once. -/
def Kept (s : S) : Prop :=
  if s.alive then s.destroyed = [] ∧ s.made.Nodup ∧ ∀ x, s.held.count x = s.made.count x
  else Balanced s

/-- No holder resolves before its value is made. -/
def Later (c : Config) : Prop := Kind.lazy true ∉ c.steps

/-- Each held value resolves at most once. -/
def FireOnce (os : List Op) : Prop := ∀ i, os.count (.fire i) ≤ 1

end Nbdl.HoldLazy
