import Verif.Nav.Model
/-!
What is assumed of browsers.
-/
namespace Nbdl.Nav.Spec
open Route

/-- Letters, digits and `-`, `_`, `~`, `/`: characters the URL standard leaves alone in a path. -/
def plainChar (c : Byte) : Bool :=
  (48 ≤ c.toNat && c.toNat ≤ 57) || (65 ≤ c.toNat && c.toNat ≤ 90) || (97 ≤ c.toNat && c.toNat ≤ 122)
    || c = 0x2d#8 || c = 0x5f#8 || c = 0x7e#8 || c = slash

/-- A path without anything special: it begins with one slash (two would begin a host name). -/
def plain (s : List Byte) : Bool :=
  match s with
  | [] => false
  | [c] => c = slash
  | c :: d :: t => c = slash && d ≠ slash && (c :: d :: t).all plainChar

/-- The browser takes a plain path as it is. -/
def Sane (br : Browser) : Prop := ∀ s, plain s = true → br.resolve s = some s

/-- A browser that percent-encodes blanks. -/
def encoding : Browser where
  resolve s := some (s.flatMap fun c => if c = 0x20#8 then ascii "%20" else [c])

end Nbdl.Nav.Spec
