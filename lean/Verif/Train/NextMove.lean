import Verif.Train.SelfPlay

/-! # Model of `get_next_move_for_state` -/

namespace DieE.Train
open DieE.Mcts

/-- `get_next_move_for_state`, alphazero.rs:139-147; `search` stands for `alpha_mcts` (`None`, or the probabilities). -/
def nextMove {G : Game} (search : G.S → M (Option Row)) (pw : Rat → Rat) (s : G.S) : M G.Mv := do
  let r ← search s
  match r with
  | none => pure G.emptyMove
  | some pi => do
    let c ← weightedSelect G.actionSpace (temper pw pi)
    M.lift (G.decode s c)

end DieE.Train
