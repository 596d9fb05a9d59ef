import Verif.Nested.Model
import Verif.Dom.Model
/-!
# A page that is kept by a context

Models the renderer of `/repo/include/nbdl/webui/renderer.hpp` as an actor of a context:
`notify_state_change` (179-187) updates the whole page whatever the path, and the constructor of a renderer
that is made by a context renders the page (110-118).  And the constructor of `/repo/include/nbdl/context.hpp`
(246-269): `actors` (112) is declared before `stores` (113) and so made before.

Simplifications.  An update of a page is one step: rendering and updating push nothing, and this holds for
stores that never show `trigger_read` (as map stores), so that nobody else is called meanwhile.  The page
finds the stores as they are when the renderer is called, which is what the log of `Verif.Nested` records.
-/
namespace Nbdl.Page
open MapStore (Msg View Payload)
open Context (Config Actor StoreOps)
open Nested

variable {A S P V : Type}

/-- The stores as actor `b` found them each time it was notified, in order. -/
def seenBy (b : Nat) (log : List (Entry S P V)) : List (Nat → S) :=
  log.filterMap fun e => match e with
    | .called _ _ (.notify a _ _) st => if a = b then some st else none
    | _ => none

/-- The document after a history: the page was rendered into element `el` and then updated each time the
renderer, actor `b`, was notified (renderer.hpp:120-145, 179-187). -/
def page (b : Nat) (x : Dom.Item (Nat → S)) (el : Nat) (doc : Dom.Dom) (st : Nat → S) (log : List (Entry S P V)) :
    Except Dom.Fault (Dom.Dom × List (Dom.Inst (Nat → S))) :=
  (Dom.render st doc el x).bind fun r => Dom.updates r.1 r.2 (seenBy b log)

/-! ## Making a context -/

mutual
/-- The page looks at the stores when it is rendered: some action of it has a path. -/
def looks : Dom.Item S → Bool
  | .elem _ items => looksAll items
  | .text t => looksText t
  | .attrDyn _ _ | .attrIf _ _ | .classIf _ _ | .classWhen _ _ => true
  | .branch _ _ => true
  | .forEach _ _ => true
  | .attr _ _ | .html _ | .noop => false
def looksAll : List (Dom.Item S) → Bool
  | [] => false
  | x :: xs => looks x || looksAll xs
def looksText : Dom.TextSpec S → Bool
  | .const _ => false
  | .path _ => true
  | .concat ts => looksTexts ts
def looksTexts : List (Dom.TextSpec S) → Bool
  | [] => false
  | t :: ts => looksText t || looksTexts ts
end

/-- How an actor is made: by a constructor that may use the handle it is given, or it is a renderer. -/
inductive Ctor (A S P V : Type) where
  | program (q : Prog A P V)
  | renderer (x : Dom.Item (Nat → S))

/-- A constructor that runs before the stores exist.  Using them is undefined behaviour; so is a push, which
uses them too or an actor that may not exist. -/
def earlyProg : Prog A P V → A → Cpp A
  | .done, a => .ok a
  | .get k, a => earlyProg (k a) a
  | .put a k, _ => earlyProg k a
  | .push _ _ _, _ => .ub
  | .submit _ _ _, _ => .ub
  | .look _ _ _, _ => .ub

/-- The constructor of an actor, before the stores exist. -/
def early : Ctor A S P V → A → Cpp A
  | .program q, a => earlyProg q a
  | .renderer x, a => if looks x then .ub else .ok a

/-- The constructors of the actors, in order. -/
def earlyAll : List (Ctor A S P V) → A → Cpp A
  | [], a => .ok a
  | q :: qs, a => (early q a).bind (earlyAll qs)

/-- One program after another. -/
def andThen : Prog A P V → Prog A P V → Prog A P V
  | .done, r => r
  | .get k, r => .get fun a => andThen (k a) r
  | .put a k, r => .put a (andThen k r)
  | .push t m k, r => .push t m (andThen k r)
  | .submit t m k, r => .submit t m (andThen k r)
  | .look t p k, r => .look t p fun v => andThen (k v) r

/-- What `producer_init` and `consumer_init` do, in the order of `init_actors`. -/
def initProg (init : Context.Init → Prog A P V) : List Context.Init → Prog A P V
  | [] => .done
  | i :: is => andThen (init i) (initProg init is)

/-- The constructor of the context, context.hpp:246-255: the actors, then the stores, then `init_actors`. -/
def make (c : Config S P V) (ctors : List (Ctor A S P V)) (init : Context.Init → Prog A P V) (st : Nat → S) (a : A) :
    Cpp (State A S P V) :=
  (earlyAll ctors a).map fun a' => start st a' (initProg init (Context.initActors c.actors))

end Nbdl.Page
