import Verif.Backgammon.Encoding
import Verif.Backgammon.Tensor
import Verif.TicTacToe.Model

/-!
# The `LearnableGame` trait

The searches, the self-play loops and the matches are generic over the trait of `src/base.rs`.  A `Game` is an
implementation of the trait: its associated types, constants and methods.  `Backgammon.game` and `TTT.game` are the two
implementations of the repository.
-/

namespace DieE

/-- `trait LearnableGame`, base.rs:8-52 (`name`, `to_pretty_str` and the network sizes other than the action space are
left out: the code modelled on top of the trait does not use them). -/
structure Game where
  /-- the implementing type -/
  S : Type
  /-- `type Move` -/
  Mv : Type
  /-- `Move: PartialEq` -/
  decMv : DecidableEq Mv
  /-- `EMPTY_MOVE` -/
  emptyMove : Mv
  /-- `IS_DETERMINISTIC` -/
  deterministic : Bool
  /-- `ACTION_SPACE_SIZE` -/
  actionSpace : Nat
  /-- `new` -/
  new : S
  /-- `get_valid_moves` -/
  moves : S → Res (List Mv)
  /-- `apply_move` -/
  apply : S → Mv → M S
  /-- `roll_die` -/
  roll : S → M S
  /-- `skip_turn` -/
  skip : S → M S
  /-- `get_player` -/
  player : S → Int
  /-- `check_winner` -/
  winner : S → Option Int
  /-- `as_tensor` -/
  tensor : S → Res (Tensor Int)
  /-- `decode` -/
  decode : S → Nat → Res Mv
  /-- `encode` -/
  encode : S → Mv → Res Nat
  /-- `get_id` -/
  id : S → Nat
  /-- `set_id` -/
  setId : S → Nat → S

instance (G : Game) : DecidableEq G.Mv := G.decMv

namespace BG

/-- The two `gen_range(1..=6)` of `roll_die`, backgammon_logic.rs:100-104. -/
def rollDice : M (Int × Int) := do
  let a ← M.die
  let b ← M.die
  pure (a, b)

/-- `apply_move` with the dice taken from the random source, backgammon_logic.rs:176-186: no dice are drawn when the
same player moves again. -/
def applyM (pf : Profile) (g : State) (m : Actions) : M State := do
  let d ← (if g.roll.1 = g.roll.2 ∧ g.second = false then pure (0, 0) else rollDice : M (Int × Int))
  M.lift (applyMove pf g m d)

/-- `skip_turn` with the dice taken from the random source, backgammon_logic.rs:192-196. -/
def skipM (pf : Profile) (g : State) : M State := do
  let d ← rollDice
  M.lift (skipTurn pf g d)

/-- `impl LearnableGame for Backgammon`, backgammon_logic.rs:68-415. -/
def game (pf : Profile) : Game where
  S := State
  Mv := Actions
  decMv := inferInstance
  emptyMove := []
  deterministic := false
  actionSpace := 1352
  new := new
  moves := getValidMoves pf
  apply := applyM pf
  roll := fun g => do
    let d ← rollDice
    pure (rollWith g d)
  skip := skipM pf
  player := fun g => g.player
  winner := checkWinner
  tensor := asTensor
  decode := Trait.decode pf
  encode := fun g m => do
    let e ← Trait.encode pf g m
    pure e.toNat
  id := fun g => g.id
  setId := fun g i => { g with id := i }

end BG

namespace TTT

/-- `impl LearnableGame for TicTacToe`, tictactoe/mod.rs:15-117; `roll_die` is the default of base.rs:28-33, which
panics for a deterministic game. -/
def game (pf : Profile) : Game where
  S := State
  Mv := Nat
  decMv := inferInstance
  emptyMove := emptyMove
  deterministic := true
  actionSpace := actionSpace
  new := new
  moves := fun g => .ok (getValidMoves g)
  apply := fun g a => M.lift (applyMove pf g a)
  roll := fun _ => M.fail .explicitPanic
  skip := fun g => M.lift (skipTurn pf g)
  player := fun g => g.player
  winner := checkWinner
  tensor := asTensor
  decode := fun _ a => decode a
  encode := fun _ a => .ok (encode a)
  id := fun g => g.id
  setId := fun g i => { g with id := i }

end TTT

end DieE
