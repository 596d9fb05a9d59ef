import Verif.Common
/-!
# Paths and parameters of user interface specifications

Models `/repo/include/nbdl/ui_spec.hpp` (lines 44–165, 251–265), `/repo/include/nbdl/ui_helper.hpp`
(lines 28–108), `/repo/include/nbdl/ui_helper/{match_path_spec, match_params_spec, match_branch,
params_concat}.hpp`.

A specification says which value of a store to show, by a path of keys; a key may itself be looked up
in the store, computed by a function, or chosen by the type of another value.

Simplifications.
* Values, keys and stores are one type `V`.  `child s k` is what `nbdl::match_path` finds in `s`
  under one key, if anything (`Verif/Path` models `match_path`).  `type v` is the C++ type.  The store
  itself is taken to be no variant: without keys `match_path` would open it, here it finds it as it is.
* In C++ all of this is resolved by templates; each instance runs as modelled here.
* `match_params_spec` flattens a list of parameters each time it meets one (match_params_spec.hpp:
  115-121); here the nested lists are flattened first (`flatten` changes nothing the second time).
* Functions and predicates are numbered.
-/
namespace Nbdl.UiPath

mutual
/-- A parameter of a specification. -/
inductive Param (V Ty : Type)
  /-- any other value: a constant -/
  | const (v : V)
  /-- `path_t`, fwd/ui_spec.hpp:23-25 -/
  | path (p : Path V Ty)
  /-- `key_at_t`, fwd/ui_spec.hpp:33-35 -/
  | keyAt (p : Path V Ty)
  /-- `apply_t`, ui_spec.hpp:80-81 -/
  | apply (f : Nat) (ps : Params V Ty)
  /-- `branch_spec`, ui_spec.hpp:239-240 -/
  | branch (b : Branch V Ty)
  /-- `concat`, fwd/ui_spec.hpp:17 -/
  | concat (ps : Params V Ty)
/-- A list of parameters. -/
inductive Params (V Ty : Type)
  | nil
  | cons (x : Param V Ty) (xs : Params V Ty)
/-- `path_t<...>`: a list of nodes, the last step first. `get_t`, fwd/ui_spec.hpp:27-29;
`match_type`, 37-38 (`none` is `void`). -/
inductive Path (V Ty : Type)
  | nil
  | get (ps : Params V Ty) (rest : Path V Ty)
  | matchType (t : Option Ty) (ps : Params V Ty) (rest : Path V Ty)
/-- `branch_spec<match_tag, ...>` and `branch_spec<match_if_tag, ...>`. -/
inductive Branch (V Ty : Type)
  | match (p : Path V Ty) (ws : Whens V Ty)
  | matchIf (p : Path V Ty) (ws : Whens V Ty)
/-- The list of pairs of a branch: a type (`none` is `void`) or a predicate, and parameters. -/
inductive Whens (V Ty : Type)
  | nil
  | when (t : Option Ty) (ps : Params V Ty) (ws : Whens V Ty)
  | cond (i : Nat) (ps : Params V Ty) (ws : Whens V Ty)
end

/-- What the specification is about. -/
structure World (V Ty : Type) where
  child : V → V → Option V
  type : V → Ty
  fn : Nat → List V → V
  pred : Nat → V → Bool

/-! ## Building paths, ui_spec.hpp -/

variable {V Ty : Type}

/-- Lists of parameters appended (`mp_append`). -/
def Params.append : Params V Ty → Params V Ty → Params V Ty
  | .nil, ys => ys
  | .cons x xs, ys => .cons x (xs.append ys)

/-- `get(xs...)` where the first argument is no path, ui_spec.hpp:47-51. -/
def mkGet (xs : Params V Ty) : Path V Ty := .get xs .nil

/-- `get(path, xs...)`, ui_spec.hpp:53-63. -/
def mkGetOf (p : Path V Ty) (xs : Params V Ty) : Path V Ty :=
  match p with
  | .get as rest => .get (as.append xs) rest
  | .matchType t as rest => .get xs (.matchType t as rest)
  | .nil => .get (.cons (.path .nil) xs) .nil

/-- `make_path_match_type`, ui_spec.hpp:65-72: `match_when<T>(path)`; otherwise it does not compile. -/
def mkMatchWhen (t : Option Ty) (p : Path V Ty) : Option (Path V Ty) :=
  match p with
  | .get as rest => some (.matchType t as rest)
  | _ => none

/-- `match(path, when<T>(spec)...)` where each spec is a function of the path, ui_spec.hpp:150-165,
251-263: it is called with the path narrowed to the type. -/
def mkWhens (p : Path V Ty) : List (Option Ty × (Path V Ty → Params V Ty)) → Option (Whens V Ty)
  | [] => some .nil
  | (t, f) :: ws => do
    let q ← mkMatchWhen t p
    let r ← mkWhens p ws
    some (.when t (f q) r)

/-- See `mkWhens`. -/
def mkMatch (p : Path V Ty) (ws : List (Option Ty × (Path V Ty → Params V Ty))) :
    Option (Branch V Ty) :=
  (mkWhens p ws).map (.match p)

/-! ## Flattening, ui_helper.hpp -/

mutual
/-- `flatten_param_node`, ui_helper.hpp:64-108 -/
def flatten : Param V Ty → Params V Ty
  | .const v => .cons (.const v) .nil
  | .path p => .cons (.path (flattenPath p)) .nil
  | .keyAt p => .cons (.path (flattenPath p)) .nil
  | .apply f ps => .cons (.apply f (flattenAll ps)) .nil
  | .branch b => .cons (.branch (flattenBranch b)) .nil
  | .concat ps => flattenAll ps
/-- `mp_append` of the flattened parameters, ui_helper.hpp:76-79, 92-95; match_params_spec.hpp:115-121 -/
def flattenAll : Params V Ty → Params V Ty
  | .nil => .nil
  | .cons x xs => (flatten x).append (flattenAll xs)
/-- The lists inside paths (see above). -/
def flattenPath : Path V Ty → Path V Ty
  | .nil => .nil
  | .get ps rest => .get (flattenAll ps) (flattenPath rest)
  | .matchType t ps rest => .matchType t (flattenAll ps) (flattenPath rest)
/-- `flatten_branch_node`, ui_helper.hpp:28-51 -/
def flattenBranch : Branch V Ty → Branch V Ty
  | .match p ws => .match (flattenPath p) (flattenWhens ws)
  | .matchIf p ws => .matchIf (flattenPath p) (flattenWhens ws)
/-- `flatten_branch_node_helper_fn`, ui_helper.hpp:28-37 -/
def flattenWhens : Whens V Ty → Whens V Ty
  | .nil => .nil
  | .when t ps ws => .when t (flattenAll ps) (flattenWhens ws)
  | .cond i ps ws => .cond i (flattenAll ps) (flattenWhens ws)
end

/-! ## Looking up, match_path_spec.hpp and match_params_spec.hpp -/

/-- The calls a function got, with their arguments; or something undefined happened first. -/
abbrev Calls (V : Type) := Cpp (List (List V))

/-- `nbdl::match_path(store, keys, fn)` -/
def walk (w : World V Ty) (s : V) : List V → Option V
  | [] => some s
  | k :: ks => (w.child s k).bind fun s' => walk w s' ks

/-- `path_impl`, match_path_spec.hpp:89-131: the nodes, from the first step to the last. -/
def pathImpl : List (V → (V → Calls V) → Calls V) → V → (V → Calls V) → Calls V
  | [], s, fn => fn s
  | [n1], s, fn => n1 s fn
  | [n1, n2], s, fn => n1 s fun x => n2 x fn
  | n1 :: n2 :: n3 :: ns, s, fn => n1 s fun x => n2 x fun y => n3 y fun r => pathImpl ns r fn

/-- Whether a pair is the one: `mp_find<Types, T>` or `mp_find<Types, void>`, match_branch.hpp:36-39. -/
def isType [DecidableEq Ty] (w : World V Ty) (t : Option Ty) (v : V) : Bool :=
  match t with
  | none => true
  | some t => decide (w.type v = t)

variable [DecidableEq Ty]

mutual
/-- `match_params_spec`, match_params_spec.hpp:112-134: the parameters one after the other, each
appended to `acc`. -/
def evalParams (w : World V Ty) : Params V Ty → V → List V → (List V → Calls V) → Calls V
  | .nil, _, acc, fn => fn acc
  | .cons x xs, s, acc, fn => evalParam w x s acc fun acc => evalParams w xs s acc fn
/-- `match_param_spec_impl` and `match_param_action`, match_params_spec.hpp:29-105.  (`key_at` and
`concat` are gone after flattening.) -/
def evalParam (w : World V Ty) : Param V Ty → V → List V → (List V → Calls V) → Calls V
  | .const v, _, acc, fn => fn (acc ++ [v])
  | .path p, s, acc, fn => pathImpl (nodes w p).reverse s fun r => fn (acc ++ [r])
  | .keyAt _, _, _, _ => .ub
  | .concat _, _, _, _ => .ub
  | .apply f ps, s, acc, fn => evalParams w ps s [] fun rs => fn (acc ++ [w.fn f rs])
  | .branch b, s, acc, fn => evalBranch w b s fun rs => fn (acc ++ rs)
/-- `path_node_match`, match_path_spec.hpp:37-81: the keys are looked up in the store of the node.
For `match_type` nothing is called if the type is another one. -/
def nodes (w : World V Ty) : Path V Ty → List (V → (V → Calls V) → Calls V)
  | .nil => []
  | .get ps rest =>
    (fun s fn => evalParams w ps s [] fun ks =>
      match walk w s ks with
      | some r => fn r
      | none => .ok []) :: nodes w rest
  | .matchType t ps rest =>
    (fun s fn => evalParams w ps s [] fun ks =>
      match walk w s ks with
      | some r => if t = some (w.type r) then fn r else .ok []
      | none => .ok []) :: nodes w rest
/-- `match_branch`, match_branch.hpp:22-62, 64-105: the index is found by a call for the value at the
path; without a call it stays -1, and `mp_with_index` is undefined for it. -/
def evalBranch (w : World V Ty) : Branch V Ty → V → (List V → Calls V) → Calls V
  | .match p ws, s, fn =>
    match pathImpl (nodes w p).reverse s fun v => .ok [[v]] with
    | .ok [[v]] => evalWhens w ws v s fn
    | _ => .ub
  | .matchIf p ws, s, fn =>
    match pathImpl (nodes w p).reverse s fun v => .ok [[v]] with
    | .ok [[v]] => evalWhens w ws v s fn
    | _ => .ub
/-- The parameters of the first pair whose type or predicate fits the value `v`, looked up in the
store `s`; a branch without one does not compile (match_branch.hpp:38, detail/match_if.hpp:112-119). -/
def evalWhens (w : World V Ty) : Whens V Ty → V → V → (List V → Calls V) → Calls V
  | .nil, _, _, _ => .ub
  | .when t ps ws, v, s, fn => if isType w t v then evalParams w ps s [] fn else evalWhens w ws v s fn
  | .cond i ps ws, v, s, fn => if w.pred i v then evalParams w ps s [] fn else evalWhens w ws v s fn
end

/-- `match_path_spec(store, path, fn)`, match_path_spec.hpp:138-145 -/
def matchPath (w : World V Ty) (s : V) (p : Path V Ty) (fn : V → Calls V) : Calls V :=
  pathImpl (nodes w (flattenPath p)).reverse s fn

/-- `match_params_spec(store, params, fn)` -/
def matchParams (w : World V Ty) (s : V) (ps : Params V Ty) (fn : List V → Calls V) : Calls V :=
  evalParams w (flattenAll ps) s [] fn

/-! ## params_concat.hpp -/

mutual
/-- `params_concat`, params_concat.hpp:93-100, on flattened parameters; `text` is
`to_string_concat_view`.  `apply` does not compile there. -/
def concatParams (w : World V Ty) (text : V → List Byte) : Params V Ty → V → Cpp (List Byte)
  | .nil, _ => .ok []
  | .cons x xs, s => (concatParam w text x s).bind fun a => (concatParams w text xs s).map (a ++ ·)
/-- `param_to_string_view`, params_concat.hpp:46-90 -/
def concatParam (w : World V Ty) (text : V → List Byte) : Param V Ty → V → Cpp (List Byte)
  | .const v, _ => .ok (text v)
  | .path p, s =>
    match pathImpl (nodes w p).reverse s fun v => .ok [[v]] with
    | .ok [[v]] => .ok (text v)
    | .ok _ => .ok []
    | .ub => .ub
  | .keyAt _, _ => .ub
  | .concat _, _ => .ub
  | .apply _ _, _ => .ub
  | .branch b, s => concatBranch w text b s
/-- As `evalBranch`. -/
def concatBranch (w : World V Ty) (text : V → List Byte) : Branch V Ty → V → Cpp (List Byte)
  | .match p ws, s =>
    match pathImpl (nodes w p).reverse s fun v => .ok [[v]] with
    | .ok [[v]] => concatWhens w text ws v s
    | _ => .ub
  | .matchIf p ws, s =>
    match pathImpl (nodes w p).reverse s fun v => .ok [[v]] with
    | .ok [[v]] => concatWhens w text ws v s
    | _ => .ub
/-- As `evalWhens`. -/
def concatWhens (w : World V Ty) (text : V → List Byte) : Whens V Ty → V → V → Cpp (List Byte)
  | .nil, _, _ => .ub
  | .when t ps ws, v, s => if isType w t v then concatParams w text ps s else concatWhens w text ws v s
  | .cond i ps ws, v, s => if w.pred i v then concatParams w text ps s else concatWhens w text ws v s
end

end Nbdl.UiPath
