import Verif.Backgammon.Spec

/-! # Histories of a game: the ways client code advances a `Backgammon` value -/

namespace DieE.Spec
open BG

/-- One advance of the game as done by all drivers of the repository (`versus.rs`, `alpha_parallel.rs`, `node.rs`, …):
play a move returned by `get_valid_moves`, or skip the turn.  The dice are whatever `roll_die` draws. -/
inductive Step (pf : Profile) : State → State → Prop
  | move {g ms m dice g'} : getValidMoves pf g = .ok ms → m ∈ ms → DiceInRange dice →
      applyMove pf g m dice = .ok g' → Step pf g g'
  | skip {g dice g'} : DiceInRange dice → skipTurn pf g dice = .ok g' → Step pf g g'

/-- States reachable from `new(); roll_die()`. -/
inductive Reach (pf : Profile) : State → Prop
  | start {dice} : DiceInRange dice → Reach pf (rollWith new dice)
  | step {g g'} : Reach pf g → Step pf g g' → Reach pf g'

/-- Reachable states when additionally `roll_die` may be called at any time. -/
inductive ReachAny (pf : Profile) : State → Prop
  | start {dice} : DiceInRange dice → ReachAny pf (rollWith new dice)
  | step {g g'} : ReachAny pf g → Step pf g g' → ReachAny pf g'
  | roll {g dice} : ReachAny pf g → DiceInRange dice → ReachAny pf (rollWith g dice)

/-- Reachable states of a game that is not continued after `check_winner` has reported a winner. -/
inductive ReachStop (pf : Profile) : State → Prop
  | start {dice} : DiceInRange dice → ReachStop pf (rollWith new dice)
  | step {g g'} : ReachStop pf g → checkWinner g = none → Step pf g g' → ReachStop pf g'

end DieE.Spec
