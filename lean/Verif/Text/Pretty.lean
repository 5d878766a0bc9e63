import Verif.Text.Json
import Verif.Backgammon.Model
import Verif.TicTacToe.Model

/-!
# Model of `to_pretty_str` of both games

Text is a list of characters.  `abs` is the only operation that can overflow (entry -128).
-/

namespace DieE.Text
open DieE.Train (Name digits)

/-- `join(sep)` -/
def join (sep : Name) : List Name → Name
  | [] => []
  | [x] => x
  | x :: y :: l => x ++ sep ++ join sep (y :: l)

/-- `Vec::insert`, panics beyond the end. -/
def insertAt (l : List Name) (i : Nat) (x : Name) : Res (List Name) :=
  if i ≤ l.length then .ok (l.take i ++ [x] ++ l.drop i) else .error .indexOutOfBounds

/-- A string literal. -/
def lit (s : String) : Name := s.toList

end DieE.Text

namespace DieE.BG
open DieE.Text
open DieE.Train (Name digits)

/-- The cell of row `i` for a point with entry `n`, backgammon_logic.rs:122-130 and 140-147. -/
def prettyCell (pf : Profile) (i n : Int) : Res Name := do
  let a ← i8 pf (if n < 0 then -n else n)
  if i = 6 ∧ i ≤ a then pure ('+' :: writeInt (a - 5))
  else if i ≤ a then pure (if n < 0 then ['x'] else ['o'])
  else pure [' ']

/-- The row `i` of the given points, backgammon_logic.rs:119-132, 137-149. -/
def prettyRow (pf : Profile) (b : Board) (i : Int) (ps : List Nat) : Res (List Name) :=
  ps.mapM fun p : Nat => prettyCell pf i (b.pt p)

/-- The separators, backgammon_logic.rs:154-159. -/
def prettyFrame (row : List Name) : Res (List Name) := do
  let row ← insertAt row (row.length / 2) ['|']
  let row ← insertAt row 0 ['|']
  pure (row ++ [['|']])

/-- The points `11, 10, …, 0`. -/
def botPoints : List Nat := (List.range 12).reverse
/-- The points `12, 13, …, 23`. -/
def topPoints : List Nat := List.range' 12 12

/-- The rows of the board in the order in which they are joined, backgammon_logic.rs:111-161. -/
def prettyRows (pf : Profile) (b : Board) : Res (List (List Name)) := do
  let bot ← [1, 2, 3, 4, 5, 6].mapM fun i => prettyRow pf b i botPoints
  let blank := List.replicate ((bot.headD []).length) [' ']
  let top ← [6, 5, 4, 3, 2, 1].mapM fun i => prettyRow pf b i topPoints
  let rows ← ([botPoints.map digits] ++ (bot ++ [blank] ++ top) ++ [topPoints.map digits]).mapM prettyFrame
  pure rows.reverse

/-- `to_pretty_str`, backgammon_logic.rs:110-172. -/
def toPrettyStr (pf : Profile) (g : State) : Res Name := do
  let rows ← prettyRows pf g.board
  let board := join ['\n'] (rows.map (join ['\t']))
  let player := if g.player = -1 then lit "Player 1" else lit "Player 2"
  let info (name : String) (hit col : Int) :=
    lit name ++ lit ":\n\tBroken Pieces: " ++ writeInt hit ++ lit "\n\tPieces Collected:" ++ writeInt col
  let roll := lit "(" ++ writeInt g.roll.1 ++ lit ", " ++ writeInt g.roll.2 ++ lit ")"
  let head := lit "Current turn: " ++ player ++ lit "\tRoll: " ++ roll ++ lit "\n" ++ info "Player 1" g.board.hit.1 g.board.col.1 ++
    lit "\n" ++ info "Player 2" g.board.hit.2 g.board.col.2
  let line := List.replicate 110 '='
  pure (head ++ lit "\n" ++ line ++ lit "\n" ++ board ++ lit "\n" ++ line)

end DieE.BG

namespace DieE.TTT
open DieE.Text
open DieE.Train (Name digits)

/-- `to_pretty_str`, tictactoe/mod.rs:110-115. -/
def toPrettyStr (g : State) : Name :=
  let c (i : Nat) := writeInt (g.cell i)
  c 0 ++ lit "|" ++ c 1 ++ lit "|" ++ c 2 ++ lit "\n" ++ c 3 ++ lit "|" ++ c 4 ++ lit "|" ++ c 5 ++ lit "\n" ++
    c 6 ++ lit "|" ++ c 7 ++ lit "|" ++ c 8

end DieE.TTT
