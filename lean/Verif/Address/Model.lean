import Verif.Common
/-!
# Splitting a server address

Models `split_address` of `/repo/include/nbdl/app/client_connection.hpp` (25-45).
-/
namespace Nbdl.Address

/-- `std::string_view::find`: where `sub` first occurs. -/
def find (sub : List Byte) : List Byte → Option Nat
  | [] => if sub.isEmpty then some 0 else none
  | c :: s => if sub.isPrefixOf (c :: s) then some 0 else (find sub s).map (· + 1)

/-- What `split_address` returns: protocol, domain and port. -/
structure Parts where
  protocol : List Byte
  domain : List Byte
  port : List Byte
  deriving DecidableEq, Repr

/-- client_connection.hpp:38-44, after the protocol has been removed -/
def splitPort (protocol address : List Byte) : Parts :=
  match find (ascii ":") address with
  | some pos => ⟨protocol, address.take pos, address.drop (pos + 1)⟩
  | none => ⟨protocol, address, []⟩

/-- `split_address`, client_connection.hpp:25-45.  Line 34 takes the protocol to be everything *from* the
position of "://" on. -/
def splitAddress (address : List Byte) : Parts :=
  match find (ascii "://") address with
  | some pos => splitPort (address.drop pos) (address.drop (pos + 3))
  | none => splitPort [] address

end Nbdl.Address
