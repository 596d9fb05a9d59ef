import Verif.Keys.Model
import Verif.Sql.Spec
/-!
# What keys should do
-/
namespace Nbdl.Keys.Spec

/-- The ids a key can stand for. -/
def Fits (n : Int) : Prop := 0 ≤ n ∧ n < 2 ^ 32

/-- What a key should hold after assignments: what was assigned last. -/
def lastAssigned {T : Type} (k : Key T) (ss : List (Source T)) : BitVec 32 :=
  match ss.getLast? with
  | none => k.value
  | some (.number n) => BitVec.ofInt 32 n
  | some (.key k') => k'.value

/-- The keys among the things assigned. -/
def keysOf {T : Type} (ss : List (Source T)) : List (Key T) :=
  ss.filterMap fun | .key k => some k | .number _ => none

end Nbdl.Keys.Spec
