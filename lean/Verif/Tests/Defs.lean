import Verif.Mpdef.Model
import Verif.Def.Model
import Verif.MakeContext.Model
/-!
# The model against the project's own tests: definitions

See `Verif/Tests/Bytes.lean`.  The types of the tests are numbered.
-/
namespace Nbdl.Tests.Defs

open Nbdl Mpdef Def

/-! ## test/mpdef -/

/-- append_if.cpp -/
example : ([1, 2, 3, 4, 5, 6, 7, 8, 9] : List Nat).foldl (appendIf fun n => n % 2 == 0) [] = [2, 4, 6, 8] := by
  decide +kernel

/-- compose_collectors.cpp:33-53 -/
example : ([0, 1, 2, 3, 4] : List Nat).foldl
    (composeCollectors [fun s x => s ++ [1 * x], fun s x => s ++ [2 * x], fun s x => s ++ [3 * x]]) [[], [], []]
  = [[0, 1, 2, 3, 4], [0, 2, 4, 6, 8], [0, 3, 6, 9, 12]] := by decide +kernel

/-- compose_collectors.cpp:55-75, the counters -/
example : ([0, 1, 2, 3, 4] : List Nat).foldl
    (composeCollectors [fun s _ => 1 + s, fun s _ => 2 + s, fun s _ => 3 + s]) [0, 0, 0] = [5, 10, 15] := by
  decide +kernel

/-- group_by.cpp -/
example : groupBy ([(0, [(0, 0), (0, 1)]), (1, []), (0, []), (1, [(1, 0)]), (1, [(1, 1)]), (0, [(0, 2)]),
    (2, [])] : List (Nat × List (Nat × Nat)))
  = [(0, [(0, 0), (0, 1), (0, 2)]), (1, [(1, 0), (1, 1)]), (2, [])] := by decide +kernel

/-- A text for a tree, so that results can be compared. -/
def sh : Tree Nat Nat → List Nat
  | .atom a => [0, a]
  | .leaf k a => [1, k, a]
  | .list k ts => 2 :: k :: shs ts
  | .map k ts => 3 :: k :: shs ts
where
  shs : List (Tree Nat Nat) → List Nat
  | [] => [9]
  | t :: ts => sh t ++ shs ts

/-- The settings, with the values. -/
def settings (s : Settings Nat Nat) : List (Nat × Option Nat) :=
  s.map fun e => (e.1, e.2.bind fun t => match t with | .leaf _ a => some a | _ => none)

/-- The elements of a `make_map(make_tree_node(k, v)...)` -/
def leaves (l : List (Nat × Nat)) : List (Tree Nat Nat) := l.map fun e => .leaf e.1 e.2

/-- collect_settings.cpp -/
example : settings (([.map 0 (leaves [(1, 42), (2, 256)]), .map 0 [], .map 0 (leaves [(3, 1024)]),
    .map 0 (leaves [(2, 512)])] : List (Tree Nat Nat)).foldl collectSettings (withSettings [1, 2, 3, 4]))
  = [(1, some 42), (2, some 512), (3, some 1024), (4, none)] := by decide +kernel

/-- map.cpp:14-49 -/
def m3 : List (Tree Nat Int) := [.leaf 1 (-1), .leaf 2 (-2), .leaf 3 (-3)]

example : ([1, 2, 3, 4].map fun k => (mapFind m3 k).bind fun t => match t with | .leaf _ a => some a | _ => none)
  = [some (-1), some (-2), some (-3), none] := by decide +kernel

/-- find_in_tree.cpp: 0 is `FindMe`, 1 is `Root`, 2 is `A`, 3 is `B`, 4 is `Widgets`, 11–14 are the settings. -/
def F (ts : List (Tree Nat Nat)) : Tree Nat Nat := .map 0 ts
@[inherit_doc F] def R (ts : List (Tree Nat Nat)) : Tree Nat Nat := .map 1 ts
@[inherit_doc F] def A (ts : List (Tree Nat Nat)) : Tree Nat Nat := .map 2 ts
@[inherit_doc F] def B (ts : List (Tree Nat Nat)) : Tree Nat Nat := .map 3 ts
@[inherit_doc F] def W (ts : List (Tree Nat Nat)) : Tree Nat Nat := .list 4 ts
@[inherit_doc F] def S (i v : Nat) : Tree Nat Nat := .leaf (10 + i) v

/-- find_in_tree.cpp:32-63 -/
def tree1 : Tree Nat Nat :=
  R [F [A []], A [F [], B [F []], F [B []]], F [], F [B []], W [A [], A [], A [F []], A []]]

example : (find (fun t => t.key? == some 0) (fun n _ => 1 + n) 0 tree1).map (fun r => (sh r.1, r.2))
  = [(sh (F [A []]), 2), (sh (F []), 3), (sh (F []), 4), (sh (F [B []]), 3), (sh (F []), 2), (sh (F [B []]), 2),
     (sh (F []), 4)] := by decide +kernel

/-- find_in_tree.cpp:66-146 -/
def tree2 : Tree Nat Nat :=
  R [S 1 42, F [], A [S 2 256, F [], B [S 3 512, F []]],
     B [S 1 84, F [], A [S 1 1024, S 2 768, F [S 3 1080]]], F [S 1 1, S 4 4]]

example : (findWithSettings [11, 12, 13, 14] (fun t => t.key? == some 0) tree2).map
      (fun r => (sh r.1, settings r.2))
  = [(sh (F []), [(11, some 42), (12, none), (13, none), (14, none)]),
     (sh (F []), [(11, some 42), (12, some 256), (13, none), (14, none)]),
     (sh (F []), [(11, some 42), (12, some 256), (13, some 512), (14, none)]),
     (sh (F []), [(11, some 84), (12, none), (13, none), (14, none)]),
     (sh (F [S 3 1080]), [(11, some 1024), (12, some 768), (13, some 1080), (14, none)]),
     (sh (F [S 1 1, S 4 4]), [(11, some 1), (12, none), (13, none), (14, some 4)])] := by decide +kernel

/-- find_in_tree.cpp:149-179 -/
def tree3 : Tree Nat Nat :=
  R [S 1 1, S 2 1, A [S 1 1, B [S 1 1]], W [A [], S 1 1, S 1 1, A [S 1 1], A []]]

example : (find (fun t => t.key? == some 11) (fun n _ => 1 + n) 0 tree3).map (fun r => (sh r.1, r.2))
  = [(sh (S 1 1), 2), (sh (S 1 1), 3), (sh (S 1 1), 4), (sh (S 1 1), 3), (sh (S 1 1), 3), (sh (S 1 1), 4)] := by
  decide +kernel

/-! ## test/nbdl/builder -/

/-- The directives used by the tests. -/
def ctx (ts : List Def.Node) : Def.Node := .map .context ts
@[inherit_doc ctx] def ap (ts : List Def.Node) : Def.Node := .map .accessPoint ts
@[inherit_doc ctx] def aps (ts : List Def.Node) : Def.Node := .list .accessPoints ts
@[inherit_doc ctx] def prod (ts : List Def.Node) : Def.Node := .map .producer ts
@[inherit_doc ctx] def prods (ts : List Def.Node) : Def.Node := .list .producers ts
@[inherit_doc ctx] def cons (ts : List Def.Node) : Def.Node := .map .consumer ts
@[inherit_doc ctx] def conss (ts : List Def.Node) : Def.Node := .list .consumers ts
@[inherit_doc ctx] def nm (n : Nat) : Def.Node := .leaf .name (.user n)
@[inherit_doc ctx] def ent (n : Nat) : Def.Node := .leaf .entity (.user n)
@[inherit_doc ctx] def pk (n : Nat) : Def.Node := .leaf .pathKey (.user n)
@[inherit_doc ctx] def typ (n : Nat) : Def.Node := .leaf .type (.user n)
@[inherit_doc ctx] def st (n : Nat) : Def.Node := .leaf .store (.user n)
@[inherit_doc ctx] def acts (l : List Tag) : Def.Node := .map .actions (l.map fun t => .map t [])
@[inherit_doc ctx] def listen (l : List (List Nat)) : Def.Node :=
  .list .listenPaths (l.map fun p => .list .path (p.map fun n => .atom (.user n)))

/-- The four actions -/
def crud : List Tag := [.create, .read, .update, .delete]

/-- enumerate_access_points.cpp: `Nested1_t` is 11 and its key 111, and so on; `Root1_t` is 1 and its key 101. -/
def nested : Def.Node :=
  aps [ap [nm 11, ent 11, pk 111, acts crud],
       ap [nm 12, ent 12, pk 112, aps [ap [nm 13, ent 13, pk 113, acts [.create]]]]]

@[inherit_doc nested] def def1 : Def.Node :=
  ctx [.leaf .store .nullStore,
    prods [
      prod [typ 0, nm 21, aps [ap [nm 1, ent 1, pk 101, nested], ap [nm 2, ent 2, pk 102, acts crud, nested]]],
      prod [typ 0, nm 22,
        ap [nm 3, ent 3, pk 103, acts [.create], listen [[101, 111], [101, 112, 113]], nested]]]]

/-- An expected access point. -/
def meta' (n : Nat) (as : List Tag) (path : List Nat) (ls : List (List Nat) := []) : Meta :=
  ⟨.user n, as, .nullStore, .user n, path.map .user, ls.map (·.map .user)⟩

example : (enumerateProducers def1).map (fun l => l.flatMap (·.accessPoints))
  = some [meta' 11 crud [101, 111], meta' 13 [.create] [101, 112, 113], meta' 2 crud [102],
      meta' 11 crud [102, 111], meta' 13 [.create] [102, 112, 113],
      meta' 3 [.create] [103] [[101, 111], [101, 112, 113]], meta' 11 crud [103, 111],
      meta' 13 [.create] [103, 112, 113]] := by decide +kernel

/-- enumerate_consumers.cpp -/
example : enumerateConsumers (ctx [conss [cons [nm 11, typ 1], cons [nm 12, typ 2]]])
    = some [⟨.user 1, .user 11⟩, ⟨.user 2, .user 12⟩]
  ∧ enumerateConsumers (ctx [cons [nm 11, typ 1]]) = some [⟨.user 1, .user 11⟩] := by decide +kernel

/-- enumerate_producers.cpp -/
def apd (n : Nat) : Def.Node := aps [ap [nm n, ent n, pk (100 + n), acts [.create]]]

example : enumerateProducers (ctx [prods [prod [nm 11, typ 1, apd 31], prod [nm 12, typ 2, apd 32]]])
    = (do let a ← enumerateAccessPoints (apd 31)
          let b ← enumerateAccessPoints (apd 32)
          some [⟨.user 1, .user 11, a⟩, ⟨.user 2, .user 12, b⟩])
  ∧ enumerateProducers (ctx [prod [nm 11, typ 1, apd 31]])
    = (do let a ← enumerateAccessPoints (apd 31)
          some [⟨.user 1, .user 11, a⟩])
  ∧ enumerateAccessPoints (apd 31) = some [meta' 31 [.create] [131]] := by decide +kernel

/-- producer_map.cpp -/
def pmeta : List ProducerMeta :=
  [⟨.user 1, .user 11, [meta' 31 [.create] [131], meta' 32 [.create] [132]]⟩,
   ⟨.user 2, .user 12, [meta' 33 [.create] [133]]⟩]

example : pmeta.map producerKeys
  = [[.path [.user 131], .path [.user 132], .name (.user 11)], [.path [.user 133], .name (.user 12)]] := by
  decide +kernel

/-- store_map.cpp -/
example : storeMap [meta' 1 [.create] [101], meta' 2 [.create] [101, 102], meta' 3 [.create] [103]]
  = some [([.user 101], .nullStore, .user 1), ([.user 101, .user 102], .nullStore, .user 2),
      ([.user 103], .nullStore, .user 3)] := by decide +kernel

/-- store.cpp -/
example :
    (enumerateProducers (ctx [prod [typ 0, nm 21, ap [nm 1, ent 1, pk 101, acts [.create]]]])).map
      (fun l => (l.flatMap (·.accessPoints)).map (·.store)) = some [.nullStore]
  ∧ (enumerateProducers (ctx [prod [typ 0, nm 21, ap [st 7, nm 1, ent 1, pk 101, acts [.create]]]])).map
      (fun l => (l.flatMap (·.accessPoints)).map (·.store)) = some [.user 7] := by decide +kernel

/-- actor_init.cpp:70-102: both actors are constructed from 42. -/
example : (do let ps ← enumerateProducers (ctx [prods [prod [nm 11, typ 1]], conss [cons [nm 12, typ 2]]])
              let cs ← enumerateConsumers (ctx [prods [prod [nm 11, typ 1]], conss [cons [nm 12, typ 2]]])
              MakeContext.makeContext ps cs [(.user 11, 42), (.user 12, 42)])
  = some [some 42, some 42] := by decide +kernel

end Nbdl.Tests.Defs
