import Verif.Common
/-!
# `nbdl::variant`

Models `/repo/include/nbdl/variant.hpp` and the visitors of `/repo/include/nbdl/match.hpp`.
-/
namespace Nbdl.Variant

/-- The C++ types that occur as alternatives, with what the code asks of them. -/
structure World where
  /-- types -/
  Ty : Type
  [dec : DecidableEq Ty]
  Val : Ty → Type
  /-- `std::is_empty` -/
  empty : Ty → Bool
  /-- `hana::equal` of two values of one type -/
  equal : (t : Ty) → Val t → Val t → Bool
  /-- a function with a parameter of type `to const&` can be called with a `from` -/
  conv : (src dst : Ty) → Option (Val src → Val dst)

attribute [instance] World.dec

variable (W : World)

/-- The storage of `detail::variant<DefaultType, Tn...>`, variant.hpp:34-41: `alts` are `DefaultType, Tn...`.
Simplification: never valueless by exception. -/
structure Var (alts : List W.Ty) where
  idx : Fin alts.length
  val : W.Val alts[idx]

variable {W}

/-- The alternative that `std::variant`'s constructor takes for a value of type `t`: overload resolution among the
alternatives a `t` converts to, `rank` being the rank of the conversion (the smaller the better); it has to be better than
all others. -/
def best (rank : W.Ty → W.Ty → Option Nat) (alts : List W.Ty) (t : W.Ty) : Option (Fin alts.length) :=
  (List.finRange alts.length).find? fun i =>
    match rank t alts[i] with
    | none => false
    | some r => (List.finRange alts.length).all fun j => decide (j = i) || (match rank t alts[j] with
      | none => true
      | some q => decide (r < q))

/-- `variant(T val)`, variant.hpp:62-65; `none`: it does not compile. -/
def make (rank : W.Ty → W.Ty → Option Nat) (alts : List W.Ty) (t : W.Ty) (x : W.Val t) : Option (Var W alts) :=
  match best rank alts t with
  | none => none
  | some i => (W.conv t alts[i]).map fun c => ⟨i, c x⟩

/-- A function as a visitor: for every type, whether it can be called with it and what it then does. -/
abbrev Handler (W : World) (R : Type) := (t : W.Ty) → Option (W.Val t → R)

/-- A function with one parameter of type `t const&`. -/
def on {R : Type} (t : W.Ty) (f : W.Val t → R) : Handler W R := fun u => (W.conv u t).map fun c x => f (c x)

/-- A function template, like `[](auto const&) { … }`. -/
def any {R : Type} (f : (t : W.Ty) → W.Val t → R) : Handler W R := fun u => some (f u)

/-- `hana::overload_linearly`: the first function that can be called. -/
def overload {R : Type} (hs : List (Handler W R)) : Handler W R := fun t => hs.findSome? (· t)

/-- `std::visit`, variant.hpp:96-108: it does not compile (`none`) unless there is a function for every
alternative. -/
def visit {R : Type} {alts : List W.Ty} (hs : List (Handler W R)) (v : Var W alts) : Option R :=
  if alts.all fun t => (overload hs t).isSome then (overload hs alts[v.idx]).map (· v.val) else none

/-- `get_type_id`, variant.hpp:69-72 -/
def typeId {alts : List W.Ty} (v : Var W alts) : Int := v.idx.val

/-- `match_by_type`, variant.hpp:74-85 with `call_by_type` (49-56): the type `fn` is called with, if it is. -/
def matchByType (alts : List W.Ty) (id : Int) : Option W.Ty :=
  if ¬ (id ≥ 0 ∧ id < alts.length) then none else alts[id.toNat]?

/-- `is<T>`, variant.hpp:87-91: `std::holds_alternative` does not compile (`none`) unless `T` occurs exactly
once. -/
def is {alts : List W.Ty} (t : W.Ty) (v : Var W alts) : Option Bool :=
  if alts.count t = 1 then some (decide (alts[v.idx] = t)) else none

/-- Visiting with `match_when<T>(f)`, variant.hpp:119-132: nothing (`some none`) if `T` is not held. -/
def matchWhen {R : Type} {alts : List W.Ty} (t : W.Ty) (f : W.Val t → R) (v : Var W alts) : Option (Option R) :=
  if t ∈ alts then
    match is t v with
    | none => none
    | some _ => some (if h : alts[v.idx] = t then some (f (h ▸ v.val)) else none)
  else some none

/-- `match_when` used through the general visitor, match.hpp:115-123 -/
def matchWhenGeneric {R : Type} {alts : List W.Ty} (t : W.Ty) (f : W.Val t → R) (v : Var W alts) :
    Option (Option R) :=
  visit [any fun u x => if h : u = t then some (f (h ▸ x)) else none] v

/-- `mapped_overload`, match.hpp:125-136: the function for exactly this type, or the other one. -/
def mappedOverload {R : Type} {alts : List W.Ty} (map : (t : W.Ty) → Option (W.Val t → R))
    (otherwise : (t : W.Ty) → W.Val t → R) (v : Var W alts) : Option R :=
  visit [any fun u x => match map u with
    | some f => f x
    | none => otherwise u x] v

/-- `hana::equal` of two variants, variant.hpp:267-303 -/
def equal {alts : List W.Ty} (a b : Var W alts) : Option Bool :=
  if typeId a = typeId b then
    -- the result starts as false and is set by the inner function
    (visit [any fun t v1 =>
        visit [on t fun v2 => if W.empty t then true else W.equal t v1 v2, any fun _ _ => false] b,
      any fun _ _ => some false] a).bind id
  else some false

/-- `make_optional_if`, variant.hpp:155-171; `nothing` comes first.  `none`: `T` is `nothing`. -/
def makeOptionalIf (nothing : W.Ty) (unit : W.Val nothing) (cond : Bool) (t : W.Ty) (x : W.Val t) :
    Var W [nothing, t] :=
  if cond then ⟨⟨1, by simp⟩, x⟩ else ⟨⟨0, by simp⟩, unit⟩

/-! ## As a store -/

/-- What is done with the value of a store: the keys looked at and the value given to the function. -/
structure StoreOps (W : World) (K : Type) where
  /-- `nbdl::Store` -/
  isStore : W.Ty → Bool
  /-- `nbdl::match` of such a value with a key: the type and value its visitor is called with -/
  lookup : (t : W.Ty) → W.Val t → K → (u : W.Ty) × W.Val u

/-- `match_impl<variant_tag>` with a key, variant.hpp:233-259: what the visitor is called with. -/
def matchKey {K : Type} (S : StoreOps W K) {alts : List W.Ty} (v : Var W alts) (k : K) : (u : W.Ty) × W.Val u :=
  if S.isStore alts[v.idx] then S.lookup alts[v.idx] v.val k else ⟨alts[v.idx], v.val⟩

end Nbdl.Variant
