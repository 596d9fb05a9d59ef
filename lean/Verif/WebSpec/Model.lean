import Verif.Dom.Model
import Verif.UiPath.Model
/-!
# Pages as they are written

Puts `Verif.UiPath` and `Verif.Dom` together: a page is written with paths and parameters, and the actions of the
renderer look them up in the store (`/repo/include/nbdl/webui/detail/dom_manips.hpp`).
-/
namespace Nbdl.WebSpec
open UiPath (World Params Path matchPath concatParams flattenAll isType mkMatchWhen mkGet)

/-- What the stores and their values are like: `to_text_val` for text nodes, `to_string_concat_view` for attributes, the
text the browser makes of a `std::string`, and the stores of the elements of a container: `store_range(key, container,
store)`, `/repo/include/nbdl/store_range.hpp`. -/
structure View (V Ty : Type) extends World V Ty where
  label : V → Dom.Text
  view : V → List Byte
  decode : List Byte → Dom.Text
  range : V → V → V → List V

/-- The argument of `text_node`. -/
inductive TextSpec (V Ty : Type) where
  | const (v : Dom.Text)
  | path (p : Path V Ty)
  | concat (ts : List (TextSpec V Ty))

/-- What chooses an alternative: a type (`none` is `void`) or a predicate. -/
inductive Pick (Ty : Type) where
  | type (t : Option Ty)
  | cond (i : Nat)

/-- A page, html.hpp and ui_spec.hpp.  Simplification: the pairs of a `match` or `match_if` are two lists. -/
inductive Web (V Ty : Type) where
  | elem (tag : Dom.Text) (items : List (Web V Ty))
  | text (t : TextSpec V Ty)
  | attr (name v : Dom.Text)
  | attrDyn (name : Dom.Text) (ps : Params V Ty)
  | attrIf (name : Dom.Text) (p : Path V Ty) (pred : Nat)
  | classIf (name : Dom.Text) (p : Path V Ty) (pred : Nat)
  | classWhen (name : Dom.Text) (p : Path V Ty) (t : Ty)
  | branch (p : Path V Ty) (picks : List (Pick Ty)) (bs : List (Web V Ty))
  | forEach (p : Path V Ty) (key : V) (body : Web V Ty)
  | html (v : Dom.Text)
  | noop

variable {V Ty : Type}

/-- `match(path, when<T>(f)...)` where each `f` is a function of the path, ui_spec.hpp:150-165, 251-263: it is called with
the path narrowed to the type. -/
def mkMatchBodies (p : Path V Ty) : List (Option Ty × (Path V Ty → Web V Ty)) → Option (List (Web V Ty))
  | [] => some []
  | (t, f) :: ws => do
    let q ← mkMatchWhen t p
    let r ← mkMatchBodies p ws
    some (f q :: r)

/-- See `mkMatchBodies`. -/
def mkMatch (p : Path V Ty) (ws : List (Option Ty × (Path V Ty → Web V Ty))) : Option (Web V Ty) :=
  (mkMatchBodies p ws).map (.branch p (ws.map fun x => .type x.1))

/-- `for_each(path, f)` where `f` is a function of the path of the element, ui_helper.hpp:112-130: the key is the type of `f`,
which no other function has. -/
def mkForEach (p : Path V Ty) (key : V) (f : Path V Ty → Web V Ty) : Web V Ty :=
  .forEach p key (f (mkGet (.cons (.const key) .nil)))

variable [DecidableEq Ty]

/-- What `match_path_spec` calls the function of an action with, if at all.  Simplification: undefined behaviour inside a
path counts as no call; the theorems exclude it. -/
def valueAt (w : World V Ty) (p : Path V Ty) (s : V) : Option V :=
  match matchPath w s p fun v => .ok [[v]] with
  | .ok [[v]] => some v
  | _ => none

/-- Whether an alternative is the one: match_branch.hpp:36-39, detail/match_if.hpp. -/
def picks (w : World V Ty) (v : V) : Pick Ty → Bool
  | .type t => isType w t v
  | .cond i => w.pred i v

/-- `get_branch_index`, match_branch.hpp:22-61 -/
def branchIndex (w : World V Ty) (p : Path V Ty) (ks : List (Pick Ty)) (s : V) : Option Nat :=
  (valueAt w p s).bind fun v => ks.findIdx? (picks w v)

/-- The value of an attribute, dom_manips.hpp:168-177.  Simplification as in `valueAt`. -/
def attrText (k : View V Ty) (ps : Params V Ty) (s : V) : Dom.Text :=
  match concatParams k.toWorld k.view (flattenAll ps) s with
  | .ok b => k.decode b
  | .ub => []

mutual
def compileText (k : View V Ty) : TextSpec V Ty → Dom.TextSpec V
  | .const v => .const v
  -- dom_manips.hpp:283-297
  | .path p => .path fun s => (valueAt k.toWorld p s).map k.label
  | .concat ts => .concat (compileTexts k ts)
def compileTexts (k : View V Ty) : List (TextSpec V Ty) → List (Dom.TextSpec V)
  | [] => []
  | t :: ts => compileText k t :: compileTexts k ts
end

mutual
/-- The page with what its actions find in the store. -/
def compile (k : View V Ty) : Web V Ty → Dom.Item V
  | .elem tag items => .elem tag (compileAll k items)
  | .text t => .text (compileText k t)
  | .attr n v => .attr n v
  | .attrDyn n ps => .attrDyn n (attrText k ps)
  -- 502-513
  | .attrIf n p i => .attrIf n fun s => (valueAt k.toWorld p s).map (k.pred i)
  -- 544-554
  | .classIf n p i => .classIf n fun s => (valueAt k.toWorld p s).map (k.pred i)
  -- 584-597: `match_when<T>` does nothing for values of other types
  | .classWhen n p t => .classWhen n fun s => (valueAt k.toWorld p s).any fun v => decide (k.type v = t)
  -- 354-382
  | .branch p ks bs => .branch (branchIndex k.toWorld p ks) (compileAll k bs)
  -- 640-666
  | .forEach p key body => .forEach (fun s => (valueAt k.toWorld p s).map fun c => k.range key c s) (compile k body)
  | .html v => .html v
  | .noop => .noop
def compileAll (k : View V Ty) : List (Web V Ty) → List (Dom.Item V)
  | [] => []
  | x :: xs => compile k x :: compileAll k xs
end

/-! ## Stores of elements -/

/-- A value or store of the program, or the store of an element of a container: `store_iterator`,
`/repo/include/nbdl/fwd/store_range.hpp`, with its key, the element, and the store around it. -/
inductive Held (V : Type) where
  | plain (v : V)
  | element (key : Held V) (e : V) (outer : Held V)
  deriving DecidableEq

/-- `match_impl<store_iterator_tag>`, store_range.hpp:72-91: the key leads to the element, any other one to what it leads
to from the store around. -/
def heldChild [DecidableEq V] (child : V → V → Option V) : Held V → Held V → Option (Held V)
  | .plain s, .plain k => (child s k).map .plain
  | .plain _, .element .. => none
  | .element key e outer, k => if k = key then some (.plain e) else heldChild child outer k

/-- The value; the stores of elements are no values. -/
def Held.value : Held V → V → V
  | .plain v, _ => v
  | .element .., d => d

/-- The stores of the elements of a container, in order: `store_range_t::begin` to `end`, store_range.hpp:20-48. -/
def heldRange (elements : V → List V) (key c s : Held V) : List (Held V) :=
  match c with
  | .plain c => (elements c).map fun e => .element key e s
  | .element .. => []

/-- The stores and values of a program together with the stores of elements; `d` stands for what is no value. -/
def withElements [DecidableEq V] (k : View V Ty) (elements : V → List V) (d : V) : View (Held V) Ty where
  child := heldChild k.child
  type x := k.type (x.value d)
  fn i xs := .plain (k.fn i (xs.map fun x => x.value d))
  pred i x := k.pred i (x.value d)
  label x := k.label (x.value d)
  view x := k.view (x.value d)
  decode := k.decode
  range := heldRange elements

end Nbdl.WebSpec
