import Verif.Common
/-!
# Parameter views

Models `/repo/include/nbdl/detail/params_view.hpp`.
-/
namespace Nbdl.Params

/-- An element of the type list: a type, which stands for a value of that type, or a
`ref_placeholder<pos, T>` (params_view.hpp:35-37). -/
inductive Entry where
  | value (type : Nat)
  | ref (pos : Nat)
  deriving DecidableEq

/-- `params_view<storage_size, List>`, params_view.hpp:86-98: pointers and a list of types.  `Addr` are the
objects referred to. -/
structure View (Addr : Type) where
  storage : List Addr
  list : List Entry

/-- A parameter: a reference to an object, or a value of some type; the value with state `0` is the default
constructed one, and the only one if the type is stateless. -/
inductive Param (Addr : Type) where
  | ref (a : Addr)
  | value (type state : Nat)
  deriving DecidableEq

variable {Addr : Type}

/-- `make_params_view`, params_view.hpp:120-126 -/
def make : View Addr := ⟨[], []⟩

/-- `params_view_append`, params_view.hpp:134-175: the four cases differ only in how empty storage is
represented.  Only the type of a value is kept. -/
def append (x : Param Addr) (p : View Addr) : View Addr :=
  if 0 < p.storage.length then
    match x with
    | .ref a => ⟨p.storage ++ [a], p.list ++ [.ref p.storage.length]⟩
    | .value t _ => ⟨p.storage, p.list ++ [.value t]⟩
  else
    match x with
    | .ref a => ⟨[a], p.list ++ [.ref 0]⟩
    | .value t _ => ⟨p.storage, p.list ++ [.value t]⟩

/-- `offset_ref_placholder`, params_view.hpp:50-57, and the transformation of 189-195 -/
def offset (n : Nat) : Entry → Entry
  | .ref pos => .ref (pos + n)
  | .value t => .value t

/-- `params_view_concat`, params_view.hpp:179-212 -/
def concat (p1 p2 : View Addr) : View Addr :=
  if p1.storage.length + p2.storage.length > 0 then
    ⟨p1.storage ++ p2.storage, p1.list ++ p2.list.map (offset p1.storage.length)⟩
  else ⟨[], p1.list ++ p2.list.map (offset p1.storage.length)⟩

/-- `params_view_hydrate_value`, params_view.hpp:59-79; `none`: `hana::at_c` does not compile. -/
def hydrate (p : View Addr) : Entry → Option (Param Addr)
  | .value t => some (.value t 0)
  | .ref pos => p.storage[pos]?.map .ref

/-- `hana::unpack`, params_view.hpp:225-234 -/
def unpack (p : View Addr) : Option (List (Param Addr)) := p.list.mapM (hydrate p)

end Nbdl.Params
