import Verif.Common
/-!
# The renderer

Models `/repo/include/nbdl/webui/detail/flatten_spec.hpp`, `/repo/include/nbdl/webui/renderer.hpp` and
`/repo/include/nbdl/webui/detail/dom_manips.hpp` over a document with shared nodes.  `S` is the type of the
stores: what a path leads to is a function of the store, with `none` for a path that does not match.

Not modelled: event listeners, hidden file inputs, properties (like attributes) and `destroy`, which do not
change the tree.
-/
namespace Nbdl.Dom

abbrev Text := List Char

/-! ## The document -/

inductive Kind where
  | elem (tag : Text)
  | text (value : Text)
  /-- what the browser makes of a piece of HTML: one opaque node (a simplification) -/
  | raw (html : Text)
  deriving DecidableEq, Repr

/-- A node.  Simplification: the classes are a set and not a part of the attributes. -/
structure Node where
  kind : Kind
  attrs : Text → Option Text
  classes : Text → Bool
  children : List Nat
  parent : Option Nat

structure Dom where
  node : Nat → Node
  next : Nat

/-- What can go wrong: undefined behaviour, or an exception of the browser. -/
inductive Fault where
  | ub
  | exception
  deriving DecidableEq, Repr

def Dom.set (h : Dom) (i : Nat) (n : Node) : Dom := { h with node := fun j => if j = i then n else h.node j }

/-- `createElement`, `createTextNode` -/
def Dom.create (h : Dom) (k : Kind) : Dom :=
  { node := fun j => if j = h.next then ⟨k, fun _ => none, fun _ => false, [], none⟩ else h.node j
    next := h.next + 1 }

def Dom.setAttr (h : Dom) (i : Nat) (name : Text) (v : Option Text) : Dom :=
  h.set i { h.node i with attrs := fun n => if n = name then v else (h.node i).attrs n }

def Dom.setClass (h : Dom) (i : Nat) (name : Text) (v : Bool) : Dom :=
  h.set i { h.node i with classes := fun n => if n = name then v else (h.node i).classes n }

def Dom.setKind (h : Dom) (i : Nat) (k : Kind) : Dom := h.set i { h.node i with kind := k }

/-- Takes a node out of its parent. -/
def Dom.detach (h : Dom) (c : Nat) : Dom :=
  match (h.node c).parent with
  | none => h
  | some q =>
    let h1 := h.set q { h.node q with children := (h.node q).children.filter (· ≠ c) }
    h1.set c { h1.node c with parent := none }

/-- `appendChild`.  Simplification: no check that the node is not an ancestor. -/
def Dom.append (h : Dom) (p c : Nat) : Dom :=
  let h1 := h.detach c
  let h2 := h1.set p { h1.node p with children := (h1.node p).children ++ [c] }
  h2.set c { h2.node c with parent := some p }

/-- `replaceChild`: it throws if the old node is not a child. -/
def Dom.replace (h : Dom) (p new old : Nat) : Except Fault Dom :=
  if (h.node old).parent ≠ some p then .error .exception
  else if new = old then .ok h
  else
    let h1 := h.detach new
    let h2 := h1.set p { h1.node p with
      children := (h1.node p).children.map fun c => if c = old then new else c }
    let h3 := h2.set old { h2.node old with parent := none }
    .ok (h3.set new { h3.node new with parent := some p })

/-- `innerHTML = ""` -/
def Dom.clear (h : Dom) (p : Nat) : Dom :=
  let cs := (h.node p).children
  let h1 : Dom := { h with node := fun j => if j ∈ cs then { h.node j with parent := none } else h.node j }
  h1.set p { h1.node p with children := [] }

/-! ## Specifications and instructions -/

/-- The argument of `text_node`. -/
inductive TextSpec (S : Type) where
  | const (v : Text)
  | path (f : S → Option Text)
  | concat (ts : List (TextSpec S))

/-- A specification, html.hpp and ui_spec.hpp -/
inductive Item (S : Type) where
  | elem (tag : Text) (items : List (Item S))
  | text (t : TextSpec S)
  | attr (name v : Text)
  | attrDyn (name : Text) (f : S → Text)
  | attrIf (name : Text) (f : S → Option Bool)
  | classIf (name : Text) (f : S → Option Bool)
  | classWhen (name : Text) (f : S → Bool)
  /-- `match` and `match_if`: the index of the branch (`get_branch_index`, ui_helper/match_branch.hpp:22-61) -/
  | branch (f : S → Option Nat) (bs : List (Item S))
  /-- `for_each`: the stores of the elements -/
  | forEach (f : S → Option (List S)) (body : Item S)
  | html (v : Text)
  | noop

/-- The actions of the flat list (`action_fn`). -/
inductive Instr (S : Type) where
  | beginEl (tag : Text)
  | endEl
  | text (v : Text)
  | textPath (f : S → Option Text)
  | attr (name v : Text)
  | attrDyn (name : Text) (f : S → Text)
  | attrIf (name : Text) (f : S → Option Bool)
  | classIf (name : Text) (f : S → Option Bool)
  | classWhen (name : Text) (f : S → Bool)
  | branch (f : S → Option Nat) (bs : List (List (Instr S)))
  | forEach (f : S → Option (List S)) (body : List (Instr S))
  | html (v : Text)

variable {S : Type}

mutual
/-- `flatten_text_node`, flatten_spec.hpp:57-83 -/
def flattenText : TextSpec S → List (Instr S)
  | .const v => [.text v]
  | .path f => [.textPath f]
  | .concat ts => flattenTexts ts
def flattenTexts : List (TextSpec S) → List (Instr S)
  | [] => []
  | t :: ts => flattenText t ++ flattenTexts ts
end

mutual
/-- `flatten_spec_fn`, flatten_spec.hpp:85-162, with `flatten_named_node_fn`, 36-55, and
`flatten_branch_node`, `flatten_for_each_node`, ui_helper.hpp:28-51 and 112-130 -/
def flatten : Item S → List (Instr S)
  | .elem tag items => .beginEl tag :: (flattenAll items ++ [.endEl])
  | .text t => flattenText t
  | .attr n v => [.attr n v]
  | .attrDyn n f => [.attrDyn n f]
  | .attrIf n f => [.attrIf n f]
  | .classIf n f => [.classIf n f]
  | .classWhen n f => [.classWhen n f]
  | .branch f bs => [.branch f (flattenEach bs)]
  | .forEach f body => [.forEach f (flatten body)]
  | .html v => [.html v]
  | .noop => []
def flattenAll : List (Item S) → List (Instr S)
  | [] => []
  | x :: xs => flatten x ++ flattenAll xs
def flattenEach : List (Item S) → List (List (Instr S))
  | [] => []
  | x :: xs => flatten x :: flattenEach xs
end

/-! ## Rendering -/

/-- The members of the nodes of a render pipe (`mut_action_fn`); `static` for the others. -/
inductive Inst (S : Type) where
  | static
  | textPath (f : S → Option Text) (el : Nat)
  | attrDyn (name : Text) (f : S → Text) (el : Nat)
  | attrIf (name : Text) (f : S → Option Bool) (el : Nat)
  | classIf (name : Text) (f : S → Option Bool) (el : Nat)
  | classWhen (name : Text) (f : S → Bool) (el : Nat)
  /-- `parent_el`, `branch_id` (`none` for -1), `node_containers` (`none` for null) and `renderers` -/
  | branch (f : S → Option Nat) (parent : Nat) (cur : Option Nat) (containers : List (Option Nat))
      (subs : List (List (Inst S)))
  /-- the renderers of the elements are never used again -/
  | forEach (f : S → Option (List S)) (body : List (Instr S)) (el : Nat)

/-- `update` of a text node, dom_manips.hpp:291-298 -/
def updateText (s : S) (h : Dom) (f : S → Option Text) (el : Nat) : Dom :=
  match f s with
  | some v => h.setKind el (.text v)
  | none => h

/-- `update` of `add_attribute_if`, dom_manips.hpp:502-513 -/
def updateAttrIf (s : S) (h : Dom) (name : Text) (f : S → Option Bool) (el : Nat) : Dom :=
  match f s with
  | some true => h.setAttr el name (some [])
  | some false => h.setAttr el name none
  | none => h

/-- `update` of `add_class_if`, dom_manips.hpp:544-554 -/
def updateClassIf (s : S) (h : Dom) (name : Text) (f : S → Option Bool) (el : Nat) : Dom :=
  match f s with
  | some b => h.setClass el name b
  | none => h

/-- `update_branch`, dom_manips.hpp:354-382: the document and the new `branch_id`.  An index past the end of
`node_containers` is undefined behaviour; null as an argument throws. -/
def updateBranch (s : S) (h : Dom) (f : S → Option Nat) (parent : Nat) (cur : Option Nat)
    (containers : List (Option Nat)) : Except Fault Dom :=
  if f s = cur then .ok h
  else
    match f s with
    | none => .error .ub
    | some i =>
      match containers[i]? with
      | none => .error .ub
      | some new =>
        match cur with
        | some b =>
          match containers[b]? with
          | none => .error .ub
          | some old =>
            match new, old with
            | some new, some old => h.replace parent new old
            | _, _ => .error .exception
        | none =>
          match new with
          | some new => .ok (h.append parent new)
          | none => .error .exception

/-- The elements one after another, dom_manips.hpp:658-663 -/
def renderItems (render : S → Dom → Except Fault Dom) : List S → Dom → Except Fault Dom
  | [], h => .ok h
  | s :: ss, h => do
    let h ← render s h
    renderItems render ss h

mutual
/-- The call operators of the actions, dom_manips.hpp: the document, the next parent (`none` for null) and the
members.  Simplification: the node of a text node with a path is created here and not in the constructor; a
null parent always throws. -/
def run (s : S) (h : Dom) (p : Nat) : Instr S → Except Fault (Dom × Option Nat × Inst S)
  -- 99-111
  | .beginEl tag => .ok (((h.create (.elem tag)).append p h.next), some h.next, .static)
  -- 113-121
  | .endEl => .ok (h, (h.node p).parent, .static)
  -- 239-250
  | .text v => .ok ((h.create (.text v)).append p h.next, some p, .static)
  -- 258-289
  | .textPath f => .ok (updateText s ((h.create (.text [])).append p h.next) f h.next, some p, .textPath f h.next)
  -- 127-141
  | .attr n v => .ok (h.setAttr p n (some v), some p, .static)
  -- 149-177
  | .attrDyn n f => .ok (h.setAttr p n (some (f s)), some p, .attrDyn n f p)
  -- 482-500
  | .attrIf n f => .ok (updateAttrIf s h n f p, some p, .attrIf n f p)
  -- 524-542
  | .classIf n f => .ok (updateClassIf s h n f p, some p, .classIf n f p)
  -- 565-582
  | .classWhen n f => .ok (h.setClass p n (f s), some p, .classWhen n f p)
  -- 400-418
  | .branch f bs => do
    let (h, containers, subs) ← runBranches s (h.create (.elem "span".toList)) h.next bs
    let h ← updateBranch s h f p none containers
    .ok (h, some p, .branch f p (f s) containers subs)
  -- 632-666
  | .forEach f body => do
    let h ← renderItems (fun s h => (runAll s h (some p) body).map (·.1)) ((f s).getD []) (h.clear p)
    .ok (h, some p, .forEach f body p)
  -- 424-433
  | .html v => .ok (((h.clear p).create (.raw v)).append p h.next, some p, .static)
/-- `renderer_impl::render`, renderer.hpp:120-129 -/
def runAll (s : S) (h : Dom) (p : Option Nat) : List (Instr S) → Except Fault (Dom × Option Nat × List (Inst S))
  | [] => .ok (h, p, [])
  | x :: xs =>
    match p with
    | none => .error .exception
    | some p => do
      let (h, p, m) ← run s h p x
      let (h, p, ms) ← runAll s h p xs
      .ok (h, p, m :: ms)
/-- The loop over the branches, dom_manips.hpp:408-413: all of them are rendered into one element, and each
keeps what is then its last child. -/
def runBranches (s : S) (h : Dom) (span : Nat) :
    List (List (Instr S)) → Except Fault (Dom × List (Option Nat) × List (List (Inst S)))
  | [] => .ok (h, [], [])
  | b :: bs => do
    let (h, _, ms) ← runAll s h (some span) b
    let c := (h.node span).children.getLast?
    let (h, cs, mss) ← runBranches s h span bs
    .ok (h, c :: cs, ms :: mss)
end

mutual
/-- The `update` functions of the actions -/
def update (s : S) (h : Dom) : Inst S → Except Fault (Dom × Inst S)
  | .static => .ok (h, .static)
  | .textPath f el => .ok (updateText s h f el, .textPath f el)
  | .attrDyn n f el => .ok (h.setAttr el n (some (f s)), .attrDyn n f el)
  | .attrIf n f el => .ok (updateAttrIf s h n f el, .attrIf n f el)
  | .classIf n f el => .ok (updateClassIf s h n f el, .classIf n f el)
  | .classWhen n f el => .ok (h.setClass el n (f s), .classWhen n f el)
  -- 384-393
  | .branch f parent cur containers subs => do
    let h ← updateBranch s h f parent cur containers
    let (h, subs) ← updateEach s h subs
    .ok (h, .branch f parent (f s) containers subs)
  -- 640-666
  | .forEach f body el => do
    let h ← renderItems (fun s h => (runAll s h (some el) body).map (·.1)) ((f s).getD []) (h.clear el)
    .ok (h, .forEach f body el)
/-- `renderer_impl::update`, renderer.hpp:131-145 -/
def updateAll (s : S) (h : Dom) : List (Inst S) → Except Fault (Dom × List (Inst S))
  | [] => .ok (h, [])
  | m :: ms => do
    let (h, m) ← update s h m
    let (h, ms) ← updateAll s h ms
    .ok (h, m :: ms)
def updateEach (s : S) (h : Dom) : List (List (Inst S)) → Except Fault (Dom × List (List (Inst S)))
  | [] => .ok (h, [])
  | m :: ms => do
    let (h, m) ← updateAll s h m
    let (h, ms) ← updateEach s h ms
    .ok (h, m :: ms)
end

/-- `make_renderer`, renderer.hpp:165-170 -/
def render (s : S) (h : Dom) (p : Nat) (x : Item S) : Except Fault (Dom × List (Inst S)) :=
  (runAll s h (some p) (flatten x)).map fun r => (r.1, r.2.2)

/-- `notify_state_change` after each of a sequence of changes, renderer.hpp:179-187 -/
def updates (h : Dom) (ms : List (Inst S)) : List S → Except Fault (Dom × List (Inst S))
  | [] => .ok (h, ms)
  | s :: ss => do
    let (h, ms) ← updateAll s h ms
    updates h ms ss

end Nbdl.Dom
