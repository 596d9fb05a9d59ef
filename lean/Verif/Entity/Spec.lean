import Verif.Entity.Model
/-!
# Values seen through the names of their members
-/
namespace Nbdl.Entity
variable {P : Type}

/-- The two are values of one type, which can be compared: all entities in them are declared and have members. -/
inductive Alike (e : Env) : Val P → Val P → Prop where
  | leaf (p q : P) : Alike e (.leaf p) (.leaf q)
  | ent (c : Cls) (f g : Member → Val P) (ms : List Member) (he : e.lookup c = some ms) (hne : ms ≠ [])
      (h : ∀ m ∈ ms, Alike e (f m) (g m)) : Alike e (.ent c f) (.ent c g)

/-- Every leaf that a path of names leads to is the same in both, as far as `eq` can tell. -/
def SameLeaves (e : Env) (eq : P → P → Bool) (v w : Val P) : Prop :=
  ∀ (path : List Name) (p q : P), look e v path = some (.leaf p) → look e w path = some (.leaf q) → eq p q = true

end Nbdl.Entity
