import Verif.Tiles.Props
import Verif.Nested.Order
import Verif.Def.Model
/-!
# Playing the tiles example

Models the context of `/repo/example/tiles/game.hpp` (82-223): players ask for moves, the producer (the
echo producer, `/repo/include/nbdl/echo_producer.hpp`, as in `/repo/example/tiles/test/context.cpp`) makes them
events, and the store of the game, which listens to the path of the moves, carries them out and says that the
game has changed.

Simplifications.
* The types of paths are numbers: 0 is `game_path`, 1 is `game_move_path`; a path is the list of its keys.
* The actors are the producer and any number of others, which do nothing with the context when they are
  called; all moves are asked for by one program, one after the other.
-/
namespace Nbdl.Tiles
open MapStore (Msg View Payload)
open Context (Config Actor StoreOps)
open Nested (Code Prog Call)

/-- What messages carry and stores show. -/
inductive Val where
  /-- `game_move`, game.hpp:75-80 -/
  | move (index : Byte)
  /-- the game in the store; reading it after undefined behaviour is undefined -/
  | game (g : Cpp Game)

/-- A path: its keys, which are `int`s (game.hpp:111-112). -/
abbrev Keys := List Int

/-- `apply_foreign_message_impl<game_store>`, game.hpp:201-223: a downstream create of the path type of moves
is applied to the game, and if it changes the game the path without its last key is marked. -/
def hearMove (s : Cpp Game) (t : Nat) (m : Msg Keys Val) : Cpp Game × List Keys :=
  match s, m with
  | .ok g, .downCreate p (.value (.move i)) =>
    if t = 1 then
      match applyGameMove g i.toNat with
      | .ok (true, g') => (.ok g', [p.dropLast])
      | .ok (false, g') => (.ok g', [])
      | .ub => (.ub, [])
    else (s, [])
  | _, _ => (s, [])

/-- The store of the game: `get_impl`, game.hpp:191-199, and `apply_message` by way of
`apply_foreign_message` (apply_message.hpp:46-58), which ignores messages of the game's own path type. -/
def gameOps : StoreOps (Cpp Game) Keys Val where
  never _ := false
  apply s _ := (s, false)
  view s _ := .value (.value (.game s))
  foreign := hearMove

/-- The store of the moves: without a `Store` it is `null_store` (enumerate_access_points.hpp:68-69). -/
def moveOps : StoreOps (Cpp Game) Keys Val where
  never _ := true
  apply s _ := (s, false)
  view _ _ := .notInSet
  foreign s _ _ := (s, [])

/-- The definition of the context, game.hpp:127-161, with one consumer. -/
def definition : Def.Node :=
  .map .context [
    .map .producer [
      .leaf .name (.user 0),
      .leaf .type (.user 1),
      .map .accessPoint [
        .leaf .entity (.user 2),
        .leaf .pathKey (.user 3),
        .leaf .store (.user 4),
        .list .listenPaths [.list .path [.atom (.user 3), .atom (.user 3)]],
        .map .accessPoint [
          .leaf .entity (.user 5),
          .leaf .pathKey (.user 3),
          .map .actions [.map .create []]]]],
    .map .consumer [
      .leaf .name (.user 6),
      .leaf .type (.user 7)]]

/-- The context: the producer is the first actor, and the game listens to the moves. -/
def game (others : List Actor) : Config (Cpp Game) Keys Val where
  actors := ⟨true, false, false⟩ :: others
  producerOf _ := 0
  listeners t := if t = 1 then [0] else []
  ops t := if t = 0 then gameOps else moveOps

/-- `++key`, echo_producer.hpp:34-35, where `key` is an `int`. -/
def nextKey : Cpp Int → Cpp Int
  | .ok k => if k + 1 < 2 ^ 31 then .ok (k + 1) else .ub
  | .ub => .ub

/-- The echo producer, echo_producer.hpp:64-88, for messages whose path has no last key yet
(`to_downstream_with_key`, message.hpp:147-160); the variable is its counter.  After undefined behaviour nothing is
modelled. -/
def echoMove : Code (Cpp Int) Keys Val
  | .up _ t (.upCreate p v) => .get fun k =>
    match nextKey k with
    | .ok k' => .put (.ok k') (.push t (.downCreate (p ++ [k']) (.value v)) .done)
    | .ub => .put .ub .done
  | _ => .done

/-- `create_game_move`, game.hpp:114-125, for each of the moves. -/
def askMoves : List Byte → Prog (Cpp Int) Keys Val
  | [] => .done
  | i :: is => .submit 1 (.upCreate [0] (.move i)) (askMoves is)

/-- The stores at the beginning, game.hpp:91-99; the counter of the producer is 0 (echo_producer.hpp:34). -/
def begin (g : Game) (is : List Byte) : Nested.State (Cpp Int) (Cpp Game) Keys Val :=
  Nested.start (fun _ => .ok g) (.ok 0) (askMoves is)

end Nbdl.Tiles
