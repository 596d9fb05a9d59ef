import Verif.Path.Model
import Verif.Promise.Model
/-!
# Promises that look up a path in a store

Models `/repo/include/nbdl/path_promise.hpp` on top of `Verif/Path` (`match_path`) and `Verif/Promise`
(`promise`, `pipe`).

Simplifications.  The values handed from step to step, and the rejections, are stores and values.  `type` is the C++
type of a value (`hana::typeid_`, line 36).  A lookup that does not compile makes no call.  Keys are
compared as in `Verif/Path`.
-/
namespace Nbdl.PathPromise
open Path Promise

/-- A node of a `path_t`: `get_t<P...>` or `match_type<T, P...>`, fwd/ui_spec.hpp:27-38. -/
inductive Node (K T : Type) where
  | get (path : List K)
  | matchType (type : T) (path : List K)

variable {K V N A T : Type} [DecidableEq K] [DecidableEq T]

/-- `promise_match`, path_promise.hpp:31-51: one promise for a node; `id` tells it apart. -/
def promiseMatch (ops : Ops K V N A) (type : Store K V N → T) (id : Nat) :
    Node K T → Step (Store K V N) (Store K V N)
  -- 43-51
  | .get p => .promise id fun s =>
    match matchPath ops s p with
    | none => []
    | some v => [.resolve v]
  -- 31-41
  | .matchType t p => .promise id fun s =>
    match matchPath ops s p with
    | none => []
    | some v => if t = type v then [.resolve v] else [.reject v]

/-- `path_promise`, path_promise.hpp:53-65: the nodes of a `path_t` are the last step first. -/
def pathPromise (ops : Ops K V N A) (type : Store K V N → T) (nodes : List (Node K T)) :
    List (Step (Store K V N) (Store K V N)) :=
  nodes.reverse.mapIdx (promiseMatch ops type)

end Nbdl.PathPromise
