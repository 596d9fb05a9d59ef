import Verif.Common
/-!
# Entities: classes whose members are declared

Models `/repo/include/nbdl/entity.hpp` (22-62), `/repo/include/nbdl/entity_members.hpp` (21-60),
`/repo/include/nbdl/fwd/entity_members.hpp` (30-65, 110-119), the declarations made by
`/repo/include/nbdl/macros/NBDL_ENTITY.hpp` (14-27), and what `/repo/include/nbdl/bind_sequence.hpp` (58-69) and
`/repo/include/nbdl/bind_map.hpp` (35-52) do with entities.

Simplifications.
* A class is a number.  It has at most one base class; its fields have names, and a field hides one of the same name of
  its base.
* Values are entities and leaves of a type `P`; the types of fields are left to the values.
* What the preprocessor makes of a list of members is in `Verif.Macros`: here it is one declaration for each, in order.
* A program that does not compile is `none`.
-/
namespace Nbdl.Entity

abbrev Cls := Nat
abbrev Name := List Char

/-- A field: `::nbdl::member<Owner, T, p>`, fwd/entity_members.hpp:42-48; the type of a pointer to a member names the class
which the field is a member of (`member_traits`, 50-57). -/
structure Member where
  owner : Cls
  name : Name
  deriving DecidableEq, Repr

/-- A program: for each class itself, its base, the base of its base and so on; its own fields; and the entities declared,
with `NBDL_ENTITY` or, if there are no names, with `NBDL_EMPTY`. -/
structure Prog where
  line : Cls → List Cls
  own : Cls → List Name
  decls : List (Cls × List Name)

/-- `&Record::name`: the class in which the field is found. -/
def member (p : Prog) (c : Cls) (n : Name) : Option Member :=
  ((p.line c).find? fun d => decide (n ∈ p.own d)).map fun d => ⟨d, n⟩

/-- `NBDL_MEMBERS(Record, names…)`, NBDL_ENTITY.hpp:20-21. -/
def members (p : Prog) (c : Cls) : List Name → Option (List Member)
  | [] => some []
  | n :: ns =>
    match member p c n, members p c ns with
    | some m, some ms => some (m :: ms)
    | _, _ => none

/-- The declared entities and their members, in order: `entity_members_impl<Record>`. -/
abbrev Env := List (Cls × List Member)

/-- All declarations. -/
def expand (p : Prog) : List (Cls × List Name) → Option Env
  | [] => some []
  | (c, ns) :: ds =>
    match members p c ns, expand p ds with
    | some ms, some e => some ((c, ms) :: e)
    | _, _ => none

/-- The program: `entity_members_impl<Record>` is specialized once for each declaration (NBDL_ENTITY.hpp:20, 25), and
`member_name_impl<Member>` once for each member of each (NBDL_ENTITY.hpp:22, fwd/entity_members.hpp:115-119); none of them
may be specialized twice. -/
def compile (p : Prog) : Option Env :=
  match expand p p.decls with
  | none => none
  | some e => if (e.map (·.1)).Nodup ∧ (e.map (·.2)).flatten.Nodup then some e else none

/-- `entity_members<E>`, fwd/entity_members.hpp:30-31: `none` if `E` is not an entity (concept/Entity.hpp). -/
def membersOf (e : Env) (c : Cls) : Option (List Member) := e.lookup c

/-- `hana::at_key(entity_member_name_map<E>, name)`, entity_members.hpp:29-34 and 47-49. -/
def byName (e : Env) (c : Cls) (n : Name) : Option Member :=
  match membersOf e c with
  | none => none
  | some ms => ms.find? fun m => decide (m.name = n)

/-- Values: of a class, with a value for each field, or others. -/
inductive Val (P : Type) where
  | leaf (p : P)
  | ent (c : Cls) (f : Member → Val P)

variable {P : Type}

/-- `nbdl::get(entity, name)` along a path, entity.hpp:33-37 and entity_members.hpp:42-57. -/
def look (e : Env) : Val P → List Name → Option (Val P)
  | v, [] => some v
  | .leaf _, _ :: _ => none
  | .ent c f, n :: ns =>
    match byName e c n with
    | none => none
    | some m => look e (f m) ns

/-- The same, and a value is assigned through the reference: `decltype(auto)`, entity_members.hpp:44. -/
def store (e : Env) (w : Val P) : Val P → List Name → Option (Val P)
  | _, [] => some w
  | .leaf _, _ :: _ => none
  | .ent c f, n :: ns =>
    match byName e c n with
    | none => none
    | some m =>
      match store e w (f m) ns with
      | none => none
      | some x => some (.ent c fun k => if k = m then x else f k)

/-- `hana::equal(e1, e2)`, entity.hpp:46-61.  `hana::and_` needs an operand. -/
def equal (e : Env) (eq : P → P → Bool) : Val P → Val P → Option Bool
  | .leaf p, .leaf q => some (eq p q)
  | .ent c f, .ent d g =>
    if c = d then
      match membersOf e c with
      | none => none
      | some [] => none
      | some ms => (ms.mapM fun m => equal e eq (f m) (g m)).map fun bs => bs.all id
    else none
  | _, _ => none

/-- `nbdl::bind_sequence(entity, f)`: the arguments of `f`, bind_sequence.hpp:58-69. -/
def bindSequence (e : Env) : Val P → Option (List (Val P))
  | .leaf _ => none
  | .ent c f => (membersOf e c).map fun ms => ms.map f

/-- `nbdl::bind_map(entity, f)`: the arguments of `f`, bind_map.hpp:35-52; `member_name`: fwd/entity_members.hpp:60-63. -/
def bindMap (e : Env) : Val P → Option (List (Name × Val P))
  | .leaf _ => none
  | .ent c f => (membersOf e c).map fun ms => ms.map fun m => (m.name, f m)

end Nbdl.Entity
