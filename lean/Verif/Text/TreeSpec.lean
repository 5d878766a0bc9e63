import Verif.Text.PrettySpec

/-!
# How a printed search tree is read

Each line stands for a node: two spaces for each level, the number of the node in brackets, and further columns
separated by tabs.  The parent of a node is the last node before it that is one level higher.  The definitions do not use the printer.
-/

namespace DieE.Text
open DieE.Train (Name)

/-- A line of a tree: level, number, columns. -/
structure TreeRow where
  level : Nat
  number : Nat
  columns : List Name
  deriving DecidableEq

/-- The number of spaces at the beginning. -/
def leading (l : Name) : Nat := (l.takeWhile (· = ' ')).length

/-- The number after the first bracket. -/
def bracket (l : Name) : Nat := Nat.ofDigitChars 10 (((l.dropWhile (· ≠ '[')).drop 1).takeWhile Char.isDigit) 0

/-- The lines of a text, each ended by a newline. -/
def textLines (txt : Name) : List Name := (split '\n' txt).dropLast

/-- The rows of a text. -/
def readRows (txt : Name) : List TreeRow :=
  (textLines txt).map fun l => ⟨leading l / 2, bracket l, (split '\t' l).drop 1⟩

/-- TreeRow `r` belongs below row `p` if the rows `before` come before it: `p` is the last one that is one level higher, and nothing
between them is on a higher level. -/
def Under (before : List TreeRow) (p r : TreeRow) : Prop :=
  ∃ a b, before = a ++ p :: b ∧ r.level = p.level + 1 ∧ ∀ x ∈ b, r.level ≤ x.level

end DieE.Text

/-!
## How a tree drawn with strokes is read

A line consists of an arm, `└── ` or `├── `, after four columns for each level, and of a text.
-/

namespace DieE.Text
open DieE.Train (Name)

/-- The column of the arm. -/
def arm (l : Name) : Nat := (l.takeWhile fun c => c ≠ '└' ∧ c ≠ '├').length

/-- Level and text of a line. -/
def readArm (l : Name) : Nat × Name := (arm l / 4, l.drop (arm l + 4))

/-- A stroke leads down from column `4 * e` of the line. -/
def strokeDown (l : Name) (e : Nat) : Prop := l[4 * e]? = some '│' ∨ l[4 * e]? = some '├'

/-- Of the lines with these levels, the first one that is not below level `e` is on level `e`. -/
def Continues (e : Nat) : List Nat → Prop
  | [] => False
  | y :: rest => y = e ∨ (e < y ∧ Continues e rest)

end DieE.Text
