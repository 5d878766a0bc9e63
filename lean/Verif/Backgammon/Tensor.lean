import Verif.Tensor
import Verif.Backgammon.Model

/-! # Model of `as_tensor`, backgammon_logic.rs:198-252

Entries are the integers written by the code; the conversion of `i8`/`u8` values to 32-bit floats is exact. -/

namespace DieE.BG
open Tensor (full fromSlice cat stack)

/-- `Tensor::full(24, v).view([4, 6, 1])`, backgammon_logic.rs:206, 235, 237. -/
def fullPlane (v : Int) : Res (Tensor Int) := (full 24 v).view [4, 6, 1]

/-- `Tensor::cat(&[full(12, v), full(12, w)], 0).view([4, 6, 1])`, backgammon_logic.rs:207-214, 216-223, 225-232. -/
def halfPlane (v w : Int) : Res (Tensor Int) := do
  let t ← cat [full 12 v, full 12 w]
  t.view [4, 6, 1]

/-- `as_tensor`, backgammon_logic.rs:198-252. -/
def asTensor (g : State) : Res (Tensor Int) := do
  assert (decide (g.roll ≠ (0, 0)))
  let board ← (fromSlice g.board.pts.toList).view [4, 6, 1]
  let player ← fullPlane g.player
  let hit ← halfPlane g.board.hit.1 g.board.hit.2
  let collect ← halfPlane g.board.col.1 g.board.col.2
  let roll ← halfPlane g.roll.1 g.roll.2
  let second ← fullPlane (if g.second then 1 else 0)
  let s ← stack [board, player, hit, collect, roll, second] 2
  s.permute [3, 2, 0, 1]

end DieE.BG
