/-!
Shared vocabulary of the models.
-/
namespace Nbdl

/-- A C++ `unsigned char` / one byte of a `std::string` or socket stream. -/
abbrev Byte := BitVec 8

/-- The bytes of an ASCII string literal (C++ `char const*` literals in `/repo` are ASCII). -/
def ascii (s : String) : List Byte := s.toList.map fun c => BitVec.ofNat 8 c.toNat

/-- Result of running a piece of C++: a value, or undefined behaviour
(out-of-range access, signed overflow, bad shift, use after free). -/
inductive Cpp (α : Type) where
  | ok (a : α)
  | ub
deriving DecidableEq, Repr

namespace Cpp
/-- Sequencing: undefined behaviour is absorbing. -/
def bind {α β : Type} : Cpp α → (α → Cpp β) → Cpp β
  | ok a, f => f a
  | ub, _ => ub
/-- Post-processing of a result. -/
def map {α β : Type} (f : α → β) : Cpp α → Cpp β
  | ok a => ok (f a)
  | ub => ub
end Cpp

end Nbdl
