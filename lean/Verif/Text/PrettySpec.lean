import Verif.Text.Json

/-!
# How a printed position is read

The text is a table: lines, and in each line cells between tabs.  The definitions do not use the printer.
-/

namespace DieE.Text
open DieE.Train (Name digits)

/-- The pieces between the characters `c`. -/
def split (c : Char) : Name → List Name
  | [] => [[]]
  | x :: l => if x = c then [] :: split c l else
    match split c l with
    | [] => [[x]]
    | y :: ys => (x :: y) :: ys

/-- Cell `j` of line `i`. -/
def cellAt (txt : Name) (i j : Nat) : Name := (((split '\n' txt).map (split '\t')).getD i []).getD j []

/-- The column of point `p`: the bar is between the sixth and the seventh point of each half. -/
def column (p : Nat) : Nat :=
  let k := if p < 12 then 11 - p else p - 12
  if k < 6 then k + 1 else k + 2

/-- The line with the numbers of the points: the upper half of the board shows the points 12 to 23. -/
def labelLine (p : Nat) : Nat := if p < 12 then 22 else 8

/-- The six cells of point `p`, beginning at the edge of the board. -/
def pointCells (txt : Name) (p : Nat) : List Name :=
  [1, 2, 3, 4, 5, 6].map fun i => cellAt txt (if p < 12 then 22 - i else 8 + i) (column p)

/-- The number after a plus sign. -/
def more : Name → Int
  | '+' :: ds => (Nat.ofDigitChars 10 ds 0 : Int)
  | _ => 0

/-- The number of checkers shown in the cells, negative for `x`. -/
def readCells (cs : List Name) : Int :=
  let n : Int := (cs.map fun c => if c = ['x'] then (-1 : Int) else if c = ['o'] then 1 else 0).sum
  n + (if n < 0 then -1 else 1) * (cs.map more).sum

end DieE.Text
