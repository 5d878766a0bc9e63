import Verif.Versus.Saved
import Verif.Text.Float

/-!
# The printed result of a match

`Display` of `PlayResult`, `src/versus.rs:141-152`.
-/

namespace DieE.Versus
open DieE.Train (Name digits)
open DieE.Text
variable {G : Game}

/-- `writeln!` -/
def line (s : Name) : Name := s ++ ['\n']

/-- `self.winrate * 100.`, versus.rs:149, in `f64`. -/
def percentage (winrate : Rat) : Rat := Fp.rnd Fp.f64 (winrate * 100)

/-- `Display` of `PlayResult`, versus.rs:141-152; `Debug` of an agent is the name of its variant (versus.rs:17). -/
def PlayResult.text (r : PlayResult G) : Name :=
  line (lit "Player 1: " ++ r.player1.name) ++ line (lit "Player 2: " ++ r.player2.name) ++
  line (lit "Wins Player 1: " ++ digits r.wins1) ++ line (lit "Wins Player 2: " ++ digits r.wins2) ++
  line (lit "Draws: " ++ digits r.draws) ++ line (lit "Number of Games: " ++ digits r.nGames) ++
  line (lit "Winrate: " ++ display64 (percentage r.winrate) ++ lit "%")

end DieE.Versus
