import Verif.Train.SelfPlay
import Verif.Mcts.Spec
import Verif.Mcts.ProbsFacts

/-!
# Specification of self-play

The history of a self-play game as a list of turns, and the training fragments it should give.  Independent of the
loops: only `Frag`, `Turn`, the game and `Row` are shared with the model.
-/

namespace DieE.Train
open DieE.Mcts

variable {G : Game}

/-- State before the turn. -/
def Turn.before : Turn G → G.S
  | .skip s _ => s
  | .move s _ _ _ => s

/-- State after the turn. -/
def Turn.after : Turn G → G.S
  | .skip _ s' => s'
  | .move _ _ _ s' => s'

/-- All entries of the distribution `q` vanish under `pw`. -/
def Vanishes (N : Nat) (pw : Rat → Rat) : Prop := ∃ q : Row, IsDist N q ∧ ∀ c, c < N → (q c).map pw = some 0

/-- The turn follows the rules: a move is legal and is given positive probability, the recorded row is a distribution
under `pw` (the power of the temperature), and only a player without legal moves passes, unless powers vanish. -/
def Turn.Fair (pw : Rat → Rat) : Turn G → Prop
  | .skip s s' => (G.moves s = .ok [] ∨ Vanishes G.actionSpace pw) ∧ ∃ t t', G.skip s t = .ok (s', t')
  | .move s ps a s' => (∃ ms, G.moves s = .ok ms ∧ a ∈ ms) ∧ Plays G s a s' ∧
      (∃ c x, c < G.actionSpace ∧ G.encode s a = .ok c ∧ ps c = some x ∧ 0 < x) ∧
      ∃ q : Row, IsDist G.actionSpace q ∧ (∀ c, ps c = (q c).map pw) ∧
        ∀ c x, q c = some x → x ≠ 0 → ∃ ms, G.moves s = .ok ms ∧ ∃ b ∈ ms, G.encode s b = .ok c

/-- The game is decided by the turn. -/
def Turn.decides : Turn G → Option Int
  | .skip _ _ => none
  | .move _ _ _ s' => G.winner s'

/-- The turns of a game starting in `s`, in order of play. -/
inductive Log (G : Game) (pw : Rat → Rat) (s : G.S) : List (Turn G) → G.S → Prop
  | nil : Log G pw s [] s
  | snoc {l : List (Turn G)} {m : G.S} (t : Turn G) : Log G pw s l m → t.before = m → t.Fair pw →
      Log G pw s (l ++ [t]) t.after

/-- The winner, if the game was decided by its last turn. -/
def decided (l : List (Turn G)) : Option Int := (l.getLast?).bind Turn.decides

/-- No turn before the last decides the game. -/
def Open (l : List (Turn G)) : Prop := ∀ k, k < l.length → decided (l.take k) = none

/-- What is recorded for a turn, given the outcome for a player: a passed turn is not recorded. -/
def fragOf (outcome : Int → Int) : Turn G → List Frag
  | .skip _ _ => []
  | .move s ps _ _ => match G.tensor s with
    | .ok x => [{ outcome := outcome (G.player s), ps := ps, state := x }]
    | .error _ => []

/-- The fragments of a game, labelled with an outcome for each player. -/
def frags (outcome : Int → Int) (l : List (Turn G)) : List Frag := l.flatMap (fragOf outcome)

/-- The outcome of a game for a player: 1 for the winner, -1 for the loser, 0 otherwise. -/
def result (winner player : Int) : Int := if winner = player then 1 else if winner = -player then -1 else 0

/-- What the property expects of a game: its fragments, with the result of the game, 0 if it was not decided. -/
def expected (l : List (Turn G)) : List Frag :=
  match decided l with
  | some w => frags (result w) l
  | none => frags (fun _ => 0) l

end DieE.Train
