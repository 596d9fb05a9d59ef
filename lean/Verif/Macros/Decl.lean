import Verif.Macros.Tables

/-!
# Declaring entities and meta structs

See `Model.lean` for the preprocessor.
-/

namespace Nbdl.Macros

/-- The texts that `NBDL_ENTITY` puts into its replacement, `NBDL_ENTITY.hpp` 16–24: the record's name
in `entity_name_impl` and `entity_members_impl`, the arguments of `mpdef::list` (the members of the
entity), and the declarations of the names of the members. -/
structure Entity where
  record : List Tok
  members : List Tok
  names : List Tok
deriving DecidableEq

/-- `NBDL_ENTITY(text)`, `NBDL_ENTITY.hpp` 20–24, with `NBDL_MEMBERS.hpp` 12 and
`NBDL_MEMBER_NAMES.hpp` 10. -/
def entity (text : List Tok) : Option Entity :=
  match splitArgs text with
  | [] => none
  | record :: rest =>
    match vfunc members (record :: restArgs rest), vfunc memberNames (record :: restArgs rest) with
    | some ms, some ns => some ⟨record, ms, ns⟩
    | _, _ => none

/-- `NBDL_MEMBER_IDS(text)`, `NBDL_MEMBER_IDS.hpp` 14–15: the number of members is the second argument
of the macros of the table. -/
def entityIds (text : List Tok) : Option (List Tok) :=
  match splitArgs text with
  | [] => none
  | record :: rest =>
    match narg (restArgs rest) with
    | some size => vfunc memberIds (record :: size :: restArgs rest)
    | none => none

/-- What `MPDEF_METASTRUCT` declares, `MPDEF_METASTRUCT.hpp` 13–21: the value of `length`
(`_MPDEF_METASTRUCT_KEYS.hpp` 13), the declarations of the keys, and the arguments of
`mpdef::make_list` in `spec`. -/
structure MetaText where
  name : List Tok
  length : List Tok
  keys : List Tok
  spec : List Tok
deriving DecidableEq

/-- `MPDEF_METASTRUCT(text)`, `MPDEF_METASTRUCT.hpp` 13–21, with `_MPDEF_METASTRUCT_KEYS.hpp` 12–14 and
`_MPDEF_METASTRUCT_SPEC_NAMES.hpp` 11–12. -/
def metaText (text : List Tok) : Option MetaText :=
  match splitArgs text with
  | [] => none
  | name :: rest =>
    match narg (restArgs rest), vfunc keys (restArgs rest), vfunc specNames (restArgs rest) with
    | some n, some ks, some ss => some ⟨name, n, ks, ss⟩
    | _, _, _ => none

/-! ## Meta structs

The values are types; here they are values of any type. A key `metastruct<Impl>::at_fn<i>` is its
index `i`: keys of different meta structs are different types and do not meet here. -/

/-- `at_fn<i>` called with the meta struct, `metastruct.hpp` 33–36, which is also `metastruct_get`,
81–85. `hana::arg<i + 1>` with fewer arguments does not compile. -/
def get {V : Type} (values : List V) (key : Nat) : Option V := values[key]?

/-- `mpdef::map`'s lookup, `map.hpp` 19–53: the element with the key is found by deducing it from the
base classes; with none, or with more than one, it does not compile. -/
def atKey {V : Type} (pairs : List (Nat × V)) (key : Nat) : Option V :=
  match pairs.filter (fun p => p.1 == key) with
  | [p] => some p.2
  | _ => none

/-- `make_NAME(values…)`, `metastruct.hpp` 48–56: the number of values is not checked. -/
def make {V : Type} (values : List V) : List V := values

/-- `make_NAME_with_map(pairs…)`, `metastruct.hpp` 61–76, for a meta struct whose `spec` has the keys
`spec`: `none` if it does not compile. -/
def makeWithMap {V : Type} (spec : List Nat) (pairs : List (Nat × V)) : Option (List V) :=
  if pairs.length = spec.length then (spec.mapM (atKey pairs)).map make else none

end Nbdl.Macros
