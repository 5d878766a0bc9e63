import Verif.Versus.Model
import Verif.Mcts.Spec

/-!
# Specification of matches

The history of a game as a list of steps, what it means that it is played by the rules and by the right player, and how
it ends.  Only `Step`, `Agent`, `Rec` and the game are shared with the model.
-/

namespace DieE.Versus
open DieE.Mcts

variable {G : Game}

/-- The step follows the rules: the empty move passes the turn, every other action is a legal move. -/
def Step.Fair (st : Step G) : Prop :=
  (st.action = G.emptyMove → ∃ t t', G.skip st.before t = .ok (st.after, t')) ∧
  (st.action ≠ G.emptyMove → (∃ ms, G.moves st.before = .ok ms ∧ st.action ∈ ms) ∧ Plays G st.before st.action st.after)

/-- The step is played by the player whose turn it is, who chose the action for this very state; `A1` and `A2` say
which actions the players may choose in a state. -/
def Step.Chosen (A1 A2 : G.S → G.Mv → Prop) (st : Step G) : Prop :=
  (st.first = true ↔ G.player st.before = -1) ∧
  (if st.first then A1 st.before st.action else A2 st.before st.action)

/-- The steps of a game from state `s`, in order. -/
inductive Linked (G : Game) (s : G.S) : List (Step G) → G.S → Prop
  | nil : Linked G s [] s
  | snoc {l : List (Step G)} {m : G.S} (st : Step G) : Linked G s l m → st.before = m → Linked G s (l ++ [st]) st.after

/-- No step ends the game: none of the moves decides it or reaches the round limit. -/
def Going (limit : Nat) (l : List (Step G)) : Prop :=
  ∀ k st, l[k]? = some st → st.action ≠ G.emptyMove → G.winner st.after = none ∧ k + 1 < limit

/-- The last step, and no other, ends the game. -/
def Ends (limit : Nat) (l : List (Step G)) : Prop :=
  ∃ l' st, l = l' ++ [st] ∧ Going limit l' ∧ st.action ≠ G.emptyMove ∧ (G.winner st.after ≠ none ∨ limit ≤ l.length)

/-- The result of a game: the winner, 0 if there is none. -/
def outcome (l : List (Step G)) : Int :=
  match l.getLast? with
  | some st => (G.winner st.after).getD 0
  | none => 0

/-- The agent that should be recorded as winner. -/
def winnerAgent (a1 a2 : Agent) (w : Int) : Agent := if w = -1 then a1 else if w = 1 then a2 else .none

/-- The result of a match of `n` games reports every game exactly once: `steps` are the steps played in the games. -/
structure Accounted (A1 A2 : G.S → G.Mv → Prop) (a1 a2 : Agent) (n limit : Nat) (steps : Nat → List (Step G))
    (r : PlayResult G) : Prop where
  /-- the number of games -/
  nGames : r.nGames = n
  /-- wins and draws add up -/
  total : r.wins1 + r.wins2 + r.draws = n
  /-- one record for each game -/
  keys : (r.games.map Rec.key).Perm (List.range n)
  /-- wins of player 1 -/
  wins1 : r.wins1 = ((List.range n).filter fun i => decide (outcome (steps i) = -1)).length
  /-- wins of player 2 -/
  wins2 : r.wins2 = ((List.range n).filter fun i => decide (outcome (steps i) = 1)).length
  /-- the other games -/
  draws : r.draws = ((List.range n).filter fun i => decide (outcome (steps i) ≠ -1 ∧ outcome (steps i) ≠ 1)).length
  /-- the players -/
  players : r.player1 = a1 ∧ r.player2 = a2 ∧ ∀ g ∈ r.games, g.player1 = a1 ∧ g.player2 = a2
  /-- the recorded winner -/
  winner : ∀ g ∈ r.games, g.winner = winnerAgent a1 a2 (outcome (steps g.key))
  /-- the recorded game was played from its initial state to its end, by the rules and by the right players -/
  finished : ∀ g ∈ r.games, (∃ s, Linked G g.initial (steps g.key) s) ∧
    (∀ st ∈ steps g.key, st.Fair ∧ st.Chosen A1 A2) ∧ Ends limit (steps g.key)

/-- A rounding as that of `f64`: monotone, with an absolute error of at most `2^-53` between 0 and 1. -/
structure Rounding (rnd : Rat → Rat) : Prop where
  /-- monotone -/
  mono : ∀ x y, x ≤ y → rnd x ≤ rnd y
  /-- error -/
  err : ∀ x, 0 ≤ x → x ≤ 1 → rnd x ≤ x + 1 / 2 ^ 53 ∧ x - 1 / 2 ^ 53 ≤ rnd x

end DieE.Versus
