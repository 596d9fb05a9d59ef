import Verif.Common
/-!
# Definition trees

Models `/repo/include/mpdef/{tree_node, list, map, find_in_tree, collect_settings, group_by, append_if,
compose_collectors}.hpp`: compile-time data structures, here as run-time values.  Where the C++ program does
not compile the model says so or is not defined.
-/
namespace Nbdl.Mpdef

/-- What definitions are made of: `K` are the tags, `A` the other types.  A `tree_node<First, Second>`
(tree_node.hpp:18-19) is told apart by what `Second` is: a `list`, a `map` or something else.  The elements
of a map are tree nodes.  Simplification: the key of a node is never a node itself. -/
inductive Tree (K A : Type) where
  /-- not a `tree_node` -/
  | atom (a : A)
  | leaf (key : K) (a : A)
  | list (key : K) (ts : List (Tree K A))
  | map (key : K) (ts : List (Tree K A))

variable {K A S : Type}

namespace Tree
/-- `hana::first` -/
def key? : Tree K A → Option K
  | .atom _ => none
  | .leaf k _ => some k
  | .list k _ => some k
  | .map k _ => some k

/-- The elements of `hana::second`, if it is a collection. -/
def kids : Tree K A → List (Tree K A)
  | .list _ ts => ts
  | .map _ ts => ts
  | _ => []
end Tree

/-- `hana::find` on a map, map.hpp:19-47 and 149-158, as the tree node with that key.  Overload resolution
finds the base class for the key only if there is exactly one; otherwise the `...` overload is chosen and the
result is empty. -/
def mapFind [DecidableEq K] (ts : List (Tree K A)) (k : K) : Option (Tree K A) :=
  match ts.filter (fun t => t.key? = some k) with
  | [t] => some t
  | _ => none

mutual
/-- `in_tree_finder_fn::operator()`, find_in_tree.hpp:42-94: a matching node is not searched. -/
def find (pred : Tree K A → Bool) (summarize : S → Tree K A → S) (s : S) : Tree K A → List (Tree K A × S)
  | .atom a => if pred (.atom a) then [(.atom a, summarize s (.atom a))] else []
  | .leaf k a => if pred (.leaf k a) then [(.leaf k a, summarize s (.leaf k a))] else []
  | .list k ts =>
    if pred (.list k ts) then [(.list k ts, summarize s (.list k ts))]
    else findAll pred summarize (summarize s (.list k ts)) ts
  | .map k ts =>
    if pred (.map k ts) then [(.map k ts, summarize s (.map k ts))]
    else findAll pred summarize (summarize s (.map k ts)) ts
/-- `hana::flatten(hana::unpack(…))`, find_in_tree.hpp:85-86 -/
def findAll (pred : Tree K A → Bool) (summarize : S → Tree K A → S) (s : S) : List (Tree K A) → List (Tree K A × S)
  | [] => []
  | t :: ts => find pred summarize s t ++ findAll pred summarize s ts
end

/-- The settings collected so far: for every tag the node that sets it, `hana::just` of its value. -/
abbrev Settings (K A : Type) := List (K × Option (Tree K A))

/-- `with_settings`, collect_settings.hpp:73-77 -/
def withSettings (tags : List K) : Settings K A := tags.map fun k => (k, none)

/-- `collect_settings`, collect_settings.hpp:19-70: for every key of the state the setting found among the
children, or else that of the state; a node whose children are not a map changes nothing.  Simplification:
the tags are distinct.  Of something that is not a node it does not compile (`hana::second`). -/
def collectSettings [DecidableEq K] (st : Settings K A) : Tree K A → Settings K A
  | .map _ ts => st.map fun e => (e.1, match mapFind ts e.1 with | some t => some t | none => e.2)
  | _ => st

/-- `find_in_tree.with_settings`, find_in_tree.hpp:114-123 -/
def findWithSettings [DecidableEq K] (tags : List K) (pred : Tree K A → Bool) (t : Tree K A) :
    List (Tree K A × Settings K A) :=
  find pred collectSettings (withSettings tags) t

/-! ## Grouping, group_by.hpp -/

variable {V : Type}

/-- `add_to_map` with `mp_map_find` and `mp_map_replace`, group_by.hpp:23-34: the entry of the key is replaced
in its place by the entry with the new value list at its end, or a new entry is put at the end. -/
def addToMap [DecidableEq K] : List (K × List (List V)) → K × List V → List (K × List (List V))
  | [], p => [(p.1, [p.2])]
  | e :: m, p => if e.1 = p.1 then (e.1, e.2 ++ [p.2]) :: m else e :: addToMap m p

/-- `group_by`, group_by.hpp:36-53 -/
def groupBy [DecidableEq K] (l : List (K × List V)) : List (K × List V) :=
  (l.foldl addToMap []).map fun e => (e.1, e.2.flatten)

/-! ## Folding helpers -/

/-- `append_if`, append_if.hpp:44-54 -/
def appendIf (pred : V → Bool) (st : List V) (x : V) : List V := if pred x then st ++ [x] else st

/-- `compose_collectors`, compose_collectors.hpp:19-40: collector `i` works on state `i`.  Simplification: the
states have one type. -/
def composeCollectors (cs : List (S → V → S)) (st : List S) (x : V) : List S :=
  List.zipWith (fun c s => c s x) cs st

end Nbdl.Mpdef
