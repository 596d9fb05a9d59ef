import Verif.Tiles.PlayProps
/-!
# The model against the project's own tests: the tiles example

The checks of `/repo/example/tiles/test`, made of the model; see `Bytes.lean`.
-/
namespace Nbdl.Tests.Tiles
open Nbdl.Tiles Nbdl.Nested

/-- game_apply_move.cpp:13-34: to the left -/
example : applyGameMove (nine [1#8, 1#8, 1#8, 1#8, 0#8, 2#8, 1#8, 1#8, 1#8]) 5
    = .ok (true, nine [1#8, 1#8, 1#8, 1#8, 2#8, 0#8, 1#8, 1#8, 1#8]) := by decide +kernel
/-- game_apply_move.cpp:36-57: to the right -/
example : applyGameMove (nine [1#8, 1#8, 1#8, 1#8, 2#8, 0#8, 1#8, 1#8, 1#8]) 4
    = .ok (true, nine [1#8, 1#8, 1#8, 1#8, 0#8, 2#8, 1#8, 1#8, 1#8]) := by decide +kernel
/-- game_apply_move.cpp:59-80: up -/
example : applyGameMove (nine [1#8, 1#8, 1#8, 1#8, 1#8, 0#8, 1#8, 1#8, 2#8]) 8
    = .ok (true, nine [1#8, 1#8, 1#8, 1#8, 1#8, 2#8, 1#8, 1#8, 0#8]) := by decide +kernel
/-- game_apply_move.cpp:82-103: down -/
example : applyGameMove (nine [2#8, 1#8, 1#8, 0#8, 1#8, 1#8, 1#8, 1#8, 1#8]) 0
    = .ok (true, nine [0#8, 1#8, 1#8, 2#8, 1#8, 1#8, 1#8, 1#8, 1#8]) := by decide +kernel
/-- game_apply_move.cpp:105-120: the empty place -/
example : applyGameMove (nine [0#8, 1#8, 1#8, 1#8, 1#8, 1#8, 1#8, 1#8, 1#8]) 0
    = .ok (false, nine [0#8, 1#8, 1#8, 1#8, 1#8, 1#8, 1#8, 1#8, 1#8]) := by decide +kernel
/-- game_apply_move.cpp:121-135: not next to the empty place -/
example : applyGameMove (nine [1#8, 1#8, 1#8, 0#8, 1#8, 1#8, 1#8, 1#8, 1#8]) 2
    = .ok (false, nine [1#8, 1#8, 1#8, 0#8, 1#8, 1#8, 1#8, 1#8, 1#8]) := by decide +kernel

/-- context.cpp:36-50: a move asked for through the context -/
example : (run (game watching) echoMove 40 (begin initial [5#8])).world.stores 0
    = .ok (nine [3#8, 4#8, 6#8, 8#8, 1#8, 0#8, 2#8, 5#8, 7#8]) := by decide +kernel

end Nbdl.Tests.Tiles
