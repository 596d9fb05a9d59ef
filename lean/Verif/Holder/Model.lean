import Verif.Variant.Model
/-!
# `nbdl::variant_holder`

Models `/repo/include/nbdl/variant_holder.hpp`, with the parts of `std::variant` it uses.
-/
namespace Nbdl.Holder
open Nbdl.Variant

variable {W : World}

/-- The `std::variant` in a `variant_holder<Tn...>`, variant_holder.hpp:29-37. -/
inductive Held (W : World) (alts : List W.Ty) where
  | holds (v : Var W alts)
  /-- `valueless_by_exception` -/
  | valueless

/-- A new holder: the first alternative, newly made.  `none`: a holder of no alternatives does not compile. -/
def default (init : (t : W.Ty) → W.Val t) (alts : List W.Ty) : Option (Held W alts) :=
  if h : 0 < alts.length then some (.holds ⟨⟨0, h⟩, init alts[0]⟩) else none

/-- `match(holder, variant_index, f)`, variant_holder.hpp:40-44: what the function is called with; without a value
`std::variant_npos`. -/
def matchIndex {alts : List W.Ty} : Held W alts → Nat
  | .holds v => v.idx.val
  | .valueless => 2 ^ 64 - 1

/-- What visiting does. -/
inductive Visited (R : Type) where
  | returned (r : R)
  /-- `std::bad_variant_access` -/
  | threw
  deriving DecidableEq, Repr

/-- `match(holder, variant_value, f)`, variant_holder.hpp:46-49; `none`: it does not compile. -/
def matchValue {R : Type} {alts : List W.Ty} (f : Handler W R) (s : Held W alts) : Option (Visited R) :=
  if alts.all fun t => (f t).isSome then
    match s with
    | .holds v => (f alts[v.idx]).map fun g => .returned (g v.val)
    | .valueless => some .threw
  else none

/-- Where an exception is thrown while a value is assigned. -/
inductive Fault where
  | none
  /-- while the new value is put in the variant that is then moved from (variant.hpp:62-65) -/
  | making
  /-- while it is moved into the variant that is assigned to -/
  | moving
  deriving DecidableEq, Repr

/-- `holder.value = x`: the constructor of variant.hpp:62-65 and the move assignment of `std::variant`, which drops its value
before it moves in one of another alternative.  `none`: it does not compile.  Simplification: the move assignment of a value
of the same alternative leaves the old value if it throws. -/
def assign {alts : List W.Ty} (rank : W.Ty → W.Ty → Option Nat) (t : W.Ty) (x : W.Val t) (fault : Fault)
    (s : Held W alts) : Option (Held W alts) :=
  match Variant.make rank alts t x with
  | none => none
  | some new =>
    match fault with
    | .making => some s
    | .none => some (.holds new)
    | .moving =>
      match s with
      | .holds old => if old.idx = new.idx then some s else some .valueless
      | .valueless => some .valueless

/-! ## Serializers -/

/-- The class templates of which it matters here what they provide. -/
inductive Template where
  | stdVariant | detailVariant | holder
  deriving DecidableEq, Repr

/-- `std::variant_size_v`: only of a `std::variant`. -/
def variantSize (k : Template) (alts : List W.Ty) : Option Nat :=
  match k with
  | .stdVariant => some alts.length
  | _ => none

/-- `std::variant_alternative_t` -/
def alternative (k : Template) (alts : List W.Ty) (i : Nat) : Option W.Ty :=
  match k with
  | .stdVariant => alts[i]?
  | _ => none

/-- The public members of the class templates: `std::variant` (those that matter), variant.hpp:36-113 and
variant_holder.hpp:30-37. -/
def members : Template → List String
  | .stdVariant => ["index", "emplace", "swap", "valueless_by_exception"]
  | .detailVariant => ["value_", "type_id_from_type", "get_type_id", "match_by_type", "is", "match"]
  | .holder => ["hana_tag", "value_type", "value"]

/-- `bind_variant(type_id, holder, f)`, variant_holder.hpp:53-65, if `VariantTy` (the type of the holder) were made from
`k`: the types that a value is made of, one for each index.  `none`: it does not compile. -/
def bindIn (k : Template) (alts : List W.Ty) : Option (List W.Ty) :=
  match variantSize k alts with
  | none => none
  | some n => (List.range (n + 1)).mapM (alternative k alts)

/-- `bind_variant(holder, f)`, variant_holder.hpp:67-73, if the holder were made from `k`: the members it uses are there.
`false`: it does not compile. -/
def bindOut (k : Template) : Bool :=
  (members k).contains "match" && (members k).contains "index"

end Nbdl.Holder
