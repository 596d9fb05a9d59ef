import Verif.Common
/-!
# Composed stores and paths

Models `/repo/include/nbdl/store_compose.hpp`, `store_range.hpp`, `get.hpp`, `get_path.hpp`, `match.hpp`,
`match_path.hpp`, `apply_action.hpp`, `strong_alias.hpp`, `ext/std/unordered_map.hpp` and the store
interface of `variant.hpp`.

Simplifications.  The static structure of a store and its contents are one tree.  An expression that
does not compile for the store at hand has the result `none`; that the alternatives which are not held must
compile as well is left out.  Stores are held by value, not by `std::reference_wrapper` (which only forwards,
match.hpp:76-83, get.hpp:42-53, apply_action.hpp:78-84).
-/
namespace Nbdl.Path

/-- Stores and values. -/
inductive Store (K V N : Type) where
  /-- a value that is not a Store -/
  | value (v : V)
  /-- `nbdl::not_in_set` -/
  | notInSet
  /-- a State: an entity (entity.hpp:24-38), `hana::map`, a sequence looked up by type (get.hpp:55-73) or a pair with
  the keys `first` and `second` (get.hpp:75-95) -/
  | state (members : List (K × Store K V N))
  /-- a variant with the value it holds -/
  | variant (held : Store K V N)
  /-- `std::unordered_map` -/
  | table (rows : List (K × Store K V N))
  /-- `strong_alias`, strong_alias.hpp:17-42 -/
  | alias (inner : Store K V N)
  /-- `store_composite_t`, store_compose.hpp:28-35 -/
  | comp (key : K) (left right : Store K V N)
  /-- `store_iterator` of a `store_range`, fwd/store_range.hpp; `elem` is what the iterator points to -/
  | iter (key : K) (elem store : Store K V N)
  /-- a NetworkStore, such as a map store -/
  | net (n : N)

/-- An action. -/
inductive Action (K A : Type) where
  /-- a message, a value to assign or a function to call -/
  | raw (a : A)
  /-- `store_composite_action(key, action)`, store_compose.hpp:61-67 -/
  | tagged (k : K) (a : Action K A)
  /-- `store_iterator_action`, fwd/store_range.hpp -/
  | elem (a : Action K A)

/-- What the stores at the bottom do. -/
structure Ops (K V N A : Type) where
  /-- `match(network_store, key, fn)` -/
  view : N → K → V
  /-- `apply_message(network_store, action)` -/
  message : N → A → Option (N × Bool)
  /-- `s = action` if that compiles, else `action(s)`, apply_action.hpp:53-68 -/
  assign : Store K V N → A → Option (Store K V N)

variable {K V N A : Type} [DecidableEq K]

/-- `nbdl::Store<T>`, concept/Store.hpp:15-26; a `strong_alias` is a Store if its value is
(strong_alias.hpp:44-76). -/
def isStore : Store K V N → Bool
  | .value _ | .notInSet => false
  | .alias s => isStore s
  | _ => true

/-- `nbdl::State<T>` -/
def isState : Store K V N → Bool
  | .state _ => true
  | .alias s => isState s
  | _ => false

/-- `detail::HasMatchUnitImpl`, match.hpp:31-37: variants (variant.hpp:210-231), unordered maps
(unordered_map.hpp:25-29) and aliases of such (strong_alias.hpp:59-67). -/
def hasUnit : Store K V N → Bool
  | .variant _ | .table _ => true
  | .alias s => hasUnit s
  | _ => false

/-- `nbdl::match(s, fn)`, match.hpp:48-64: what `fn` is called with.  For an unordered map the
`static_assert` of line 56 fails, because the map passes itself on (unordered_map.hpp:25-29). -/
def matchUnit : Store K V N → Option (Store K V N)
  | .variant h => if isStore h then matchUnit h else some h
  | .table _ => none
  | .alias s => if hasUnit s then matchUnit s else some (.alias s)
  | s => some s

/-- `nbdl::get(s, k)`, get.hpp:26-32 with the instances for Searchable (55-73), entities (entity.hpp:24-38)
and aliases (strong_alias.hpp:44-57). -/
def get : Store K V N → K → Option (Store K V N)
  | .state ms, k => ms.lookup k
  | .alias s, k => get s k
  | _, _ => none

/-- `nbdl::match(s, k, fn)`, match.hpp:39-46: what `fn` is called with. -/
def matchKey (ops : Ops K V N A) : Store K V N → K → Option (Store K V N)
  | .value _, _ | .notInSet, _ => none
  -- match.hpp:66-74
  | .state ms, k => get (.state ms) k
  -- variant.hpp:233-259
  | .variant h, k => if isStore h then matchKey ops h k else some h
  -- unordered_map.hpp:31-50
  | .table rows, k =>
    match rows.lookup k with
    | none => some .notInSet
    | some v => if isStore v then matchUnit v else some v
  -- strong_alias.hpp:69-75; for a State match.hpp:66-74
  | .alias s, k => if isState s then get s k else matchKey ops s k
  -- store_compose.hpp:88-110
  | .comp key l r, k => if k = key then (if isStore r then matchUnit r else some r) else matchKey ops l k
  -- store_range.hpp:74-92
  | .iter key e s, k => if k = key then matchUnit e else matchKey ops s k
  | .net n, k => some (.value (ops.view n k))

/-- `nbdl::get_path`, get_path.hpp:23-34: `hana::fold_left(path, s, get)` -/
def getPath (s : Store K V N) (p : List K) : Option (Store K V N) := p.foldlM get s

/-- `nbdl::match_path`, match_path.hpp:45-78 with `match_path_helper_fn` (23-42): what `fn` is called with. -/
def matchPath (ops : Ops K V N A) : Store K V N → List K → Option (Store K V N)
  | s, [] => if isStore s then matchUnit s else some s
  | s, k :: p =>
    match matchKey ops s k with
    | none => none
    | some v => if isStore v then matchPath ops v p else some v

/-- `nbdl::apply_action`, apply_action.hpp:29-84; `store_composite_t`: store_compose.hpp:69-85;
`store_iterator`: store_range.hpp:56-72.  The result is the store afterwards and the value returned. -/
def applyAction (ops : Ops K V N A) : Store K V N → Action K A → Option (Store K V N × Bool)
  | .comp key l r, a =>
    match a with
    | .tagged k b =>
      if k = key then (applyAction ops r b).map fun x => (.comp key l x.1, x.2)
      else (applyAction ops l a).map fun x => (.comp key x.1 r, x.2)
    | _ => (applyAction ops l a).map fun x => (.comp key x.1 r, x.2)
  | .iter key e s, a =>
    match a with
    | .elem b => (applyAction ops e b).map fun x => (.iter key x.1 s, x.2)
    | _ => (applyAction ops s a).map fun x => (.iter key e x.1, x.2)
  | .net n, .raw a => (ops.message n a).map fun x => (.net x.1, x.2)
  | .net _, _ => none
  | s, .raw a => (ops.assign s a).map fun s' => (s', true)
  -- a wrapped action can neither be assigned nor called
  | _, _ => none

/-- `store_compose(k1, v1, store_compose(k2, v2, … base))`, store_compose.hpp:49-59 -/
def compose (bs : List (K × Store K V N)) (base : Store K V N) : Store K V N :=
  bs.foldr (fun b s => .comp b.1 s b.2) base

end Nbdl.Path
