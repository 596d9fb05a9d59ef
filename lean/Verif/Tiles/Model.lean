import Verif.Common
/-!
# The tiles example

Models `get_tile_swap_index`, `apply_game_move` and `game_store_impl` of `/repo/example/tiles/game.hpp`
(23-108).
-/
namespace Nbdl.Tiles

/-- `game`, game.hpp:68-73: `int`s and an array of 64 `unsigned char`s. -/
structure Game where
  width : Int
  height : Int
  board : List Byte
  deriving DecidableEq, Repr

/-- `g.board[i]`: undefined outside of the 64 cells. -/
def cell (g : Game) (i : Int) : Cpp Byte :=
  if 0 ≤ i ∧ i < 64 then .ok (g.board.getD i.toNat 0#8) else .ub

/-- `cond && g.board[i] == 0` -/
def emptyIf (g : Game) (cond : Bool) (i : Int) : Cpp Bool :=
  if cond then (cell g i).map fun c => decide (c = 0#8) else .ok false

/-- `g.height * g.width` as `int`s. -/
def area (g : Game) : Cpp Int :=
  if -2 ^ 31 ≤ g.height * g.width ∧ g.height * g.width < 2 ^ 31 then .ok (g.height * g.width) else .ub

/-- The difference of two `int`s. -/
def minus (a b : Int) : Cpp Int :=
  if -2 ^ 31 ≤ a - b ∧ a - b < 2 ^ 31 then .ok (a - b) else .ub

/-- Conversion of an `int` to `Index`, which is `unsigned char`. -/
def toIndex (i : Int) : Nat := (i % 256).toNat

/-- `get_tile_swap_index`, game.hpp:26-47; `i` is an `unsigned char`, and `%` is that of `int`s. Where
`i - g.width` or `i + g.width` overflow there is no such cell either. -/
def getTileSwapIndex (g : Game) (i : Nat) : Cpp Nat :=
  (cell g i).bind fun c =>
  if c = 0#8 then .ok i
  else if g.width = 0 then .ub
  else
  (emptyIf g (Int.tmod i g.width ≠ 0) (i - 1)).bind fun left =>
  if left then .ok (toIndex (i - 1))
  else
  (minus g.width 1).bind fun last =>
  (emptyIf g (Int.tmod i g.width ≠ last) (i + 1)).bind fun right =>
  if right then .ok (toIndex (i + 1))
  else
  (emptyIf g (decide ((i : Int) ≥ g.width)) (i - g.width)).bind fun above =>
  if above then .ok (toIndex (i - g.width))
  else
  (area g).bind fun a =>
  (minus a g.width).bind fun low =>
  (emptyIf g (decide ((i : Int) ≤ low)) (i + g.width)).bind fun below =>
  if below then .ok (toIndex (i + g.width))
  else .ok i

/-- `std::swap` of two cells. -/
def swap (b : List Byte) (i j : Nat) : List Byte := (b.set i (b.getD j 0#8)).set j (b.getD i 0#8)

/-- `apply_game_move`, game.hpp:49-65, of the move with this index (an `unsigned char`): the result and the
new game. -/
def applyGameMove (g : Game) (i : Nat) : Cpp (Bool × Game) :=
  (area g).bind fun a =>
  if (i : Int) < 0 ∨ (i : Int) ≥ a then .ok (false, g)
  else
  (getTileSwapIndex g i).bind fun i2 =>
  if i2 ≠ i then .ok (true, { g with board := swap g.board i i2 })
  else .ok (false, g)

/-- The initial game, game.hpp:92-100; the cells that are not listed are zero. -/
def initial : Game :=
  { width := 3, height := 3
    board := [3#8, 4#8, 6#8, 8#8, 0#8, 1#8, 2#8, 5#8, 7#8] ++ List.replicate 55 0#8 }

end Nbdl.Tiles
