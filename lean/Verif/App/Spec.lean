import Verif.App.Main
import Verif.Versus.ReportSpec
import Verif.Versus.Spec

/-!
# What the program is expected to do
-/

namespace DieE.App
open DieE.Train (Name)
open DieE.Text DieE.Versus

/-- The characters of the random ids of `nanoid!()`. -/
def Nano (s : Name) : Prop := ∀ c ∈ s, c.isAlphanum = true ∨ c = '_' ∨ c = '-'

/-- The file of the game `id` in the directory `out`. -/
def gamePath (out : Path) (id : Name) : Path := { out with parts := out.parts ++ [id ++ ".json".toList] }

/-- The names under which the configuration file is looked for. -/
def configNames (a : Cli.Args) : List Name :=
  let c := a.config.getD "./config".toList
  [c, c ++ ".toml".toList]

/-- The lines after the first line that is `l`; the last one, which is empty, is left out. -/
def block (l : String) (txt : Name) : List Name := (((split '\n' txt).dropWhile (· ≠ l.toList)).drop 1).dropLast

/-- What a replay prints. -/
structure Replayed (txt id : Name) (a1 a2 winner : Agent) : Prop where
  id : entry "Game ID: " txt = some id
  players : entry "Player 1: " txt = some (a1.name ++ ", Player 2: ".toList ++ a2.name)
  winner : entry "Game winner: " txt = some winner.name

end DieE.App
