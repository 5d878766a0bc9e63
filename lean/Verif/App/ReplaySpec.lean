import Verif.App.Spec

/-!
# How the output of a replay is read

The definitions do not use the printer.
-/

namespace DieE.App
open DieE.Train (Name digits)
open DieE.Text DieE.Versus

/-- What follows `label` in the lines that begin with it, in their order. -/
def entries (label : String) (txt : Name) : List Name :=
  (split '\n' txt).filterMap fun l => if label.toList.isPrefixOf l then some (l.drop label.length) else none

/-- The characters between words. -/
def mark (c : Char) : Bool := [' ', ',', ':', '(', ')', '[', ']', '{', '}'].contains c

/-- The words of a line. -/
def words (l : Name) : List Name := (split ' ' (l.map fun c => if mark c then ' ' else c)).filter (· ≠ [])

/-- The words for a position of TicTacToe: its name, and the names of the fields, each with its values. -/
def tttWords (g : TTT.State) : List Name :=
  ["TicTacToe".toList, "player".toList, writeInt g.player, "board".toList] ++ g.board.toList.map writeInt ++ ["id".toList, digits g.id]

/-- The words for a position of Backgammon: the board is the points, the checkers on the bar and the checkers borne off. -/
def bgWords (g : BG.State) : List Name :=
  ["Backgammon".toList, "board".toList] ++ g.board.pts.toList.map writeInt ++
    [writeInt g.board.hit.1, writeInt g.board.hit.2, writeInt g.board.col.1, writeInt g.board.col.2,
      "roll".toList, writeInt g.roll.1, writeInt g.roll.2, "player".toList, writeInt g.player,
      "is_second_play".toList, (if g.second then "true" else "false").toList, "id".toList, digits g.id]

/-- The words for the dice of a turn. -/
def rollWords : Option (Int × Int) → List Name
  | none => ["None".toList]
  | some d => ["Some".toList, writeInt d.1, writeInt d.2]

/-- The text shows the game: who played, and for every turn the agent, the dice and the positions recorded as the action;
`w` are the words for a position. -/
structure Displayed {S : Type} (w : S → List Name) (txt : Name) (g : SavedGame S) : Prop where
  head : Replayed txt g.id g.player1 g.player2 g.winner
  agents : entries "Player: " txt = g.turns.map fun t => t.player.name
  rolls : (entries "Roll: " txt).map words = g.turns.map fun t => rollWords t.roll
  actions : (entries "Action: " txt).map words = g.turns.map fun t => (t.action.map w).flatten

end DieE.App
