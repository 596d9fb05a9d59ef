import Verif.Uid.Model
/-!
What users of identifiers expect.
-/
namespace Nbdl.Uid

/-- The number written by bytes, the least significant first. -/
def number : List Byte → Nat
  | [] => 0
  | b :: bs => b.toNat + 256 * number bs

/-- Generators do not yield an identifier another one has yielded. -/
def NoSharing {I : Type} (gens : I → Nat → Uid) : Prop :=
  ∀ i j k l, i ≠ j → gens i k ≠ gens j l

/-- Random numbers as `Math.random()` yields them: multiples of `2^-53` less than one. -/
def IsRandom (ks : List Nat) : Prop := ∀ k ∈ ks, k < 2 ^ 53

end Nbdl.Uid
