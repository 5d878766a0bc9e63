import Verif.Tensor

/-! # Model of `src/tictactoe/mod.rs` -/

namespace DieE.TTT

/-- `struct TicTacToe`, mod.rs:6-13. -/
structure State where
  /-- player to move, ±1 -/
  player : Int
  /-- the nine cells, row by row -/
  board : Vector Int 9
  /-- tag used by the drivers -/
  id : Nat
  deriving DecidableEq, Repr

/-- `EMPTY_MOVE`, mod.rs:18. -/
def emptyMove : Nat := 10
/-- `ACTION_SPACE_SIZE`, mod.rs:20. -/
def actionSpace : Nat := 9

/-- `new`, mod.rs:28-30. -/
def new : State := { player := -1, board := Vector.replicate 9 0, id := 0 }

/-- `self.board[i]`. -/
def State.cell (g : State) (i : Nat) : Int := g.board.toList.getD i 0

/-- `get_valid_moves`, mod.rs:36-44 (`i.try_into().unwrap()` cannot fail for `i < 9`). -/
def getValidMoves (g : State) : List Nat := (List.range 9).filter fun i => g.cell i = 0

/-- `apply_move`, mod.rs:46-49: the target cell is overwritten without a check. -/
def applyMove (pf : Profile) (g : State) (a : Nat) : Res State :=
  if h : a < 9 then do
    let p ← i8 pf (g.player * -1)
    pure { g with board := g.board.set a g.player, player := p }
  else .error .indexOutOfBounds

/-- `skip_turn`, mod.rs:51-53. -/
def skipTurn (pf : Profile) (g : State) : Res State := do
  let p ← i8 pf (g.player * -1)
  pure { g with player := p }

/-- `winning_combinations`, mod.rs:60-64. -/
def combos : List (Nat × Nat × Nat) :=
  [(0, 1, 2), (3, 4, 5), (6, 7, 8), (0, 3, 6), (1, 4, 7), (2, 5, 8), (0, 4, 8), (2, 4, 6)]

/-- Body of the loop, mod.rs:66-74. -/
def comboWinner (g : State) (t : Nat × Nat × Nat) : Option Int :=
  let a := g.cell t.1
  let b := g.cell t.2.1
  let c := g.cell t.2.2
  if a ≠ 0 ∧ a = b ∧ b = c then some a else none

/-- `check_winner`, mod.rs:59-79. -/
def checkWinner (g : State) : Option Int :=
  match combos.findSome? (comboWinner g) with
  | some a => some a
  | none => if g.board.toList.all (fun v => v != 0) then some 0 else none

/-- `as_tensor`, mod.rs:81-92: three planes marking the cells equal to -1, 0, 1. -/
def asTensor (g : State) : Res (Tensor Int) := do
  let board ← (Tensor.fromSlice g.board.toList).view [3, 3]
  let eq (v : Int) : Tensor Int := ⟨board.shape, fun idx => if board.at' idx = v then 1 else 0⟩
  let s ← Tensor.stack [eq (-1), eq 0, eq 1] 0
  pure s.unsqueeze0

/-- `decode`, mod.rs:94-96: `u32` to `u8`. -/
def decode (action : Nat) : Res Nat := if action ≤ 255 then .ok action else .error .unwrapNone

/-- `encode`, mod.rs:98-100. -/
def encode (a : Nat) : Nat := a

end DieE.TTT
