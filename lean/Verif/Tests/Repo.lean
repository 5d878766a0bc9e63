import Verif.Mcts.Probs

/-!
# Fidelity tests (not proofs of properties)

The unit tests of the repository, run on the model.  They compare the model with the expectations written by the
authors of the code; each is a computation on one input.  `tests/encoding_test.rs` calls the inherent `encode` and
`decode` (it does not import the trait); the trait copy is tested beside it.
-/

namespace DieE.Tests
open DieE.BG

/-- The board with the given points and nothing on the bar or collected. -/
def mk (l : List Int) (hit : Int × Int := (0, 0)) (col : Int × Int := (0, 0)) : Board :=
  { pts := Vector.ofFn fun i : Fin 24 => l.getD i 0, hit := hit, col := col }

/-- The empty board with some points set. -/
def pts (l : List (Nat × Int)) (hit : Int × Int := (0, 0)) (col : Int × Int := (0, 0)) : Board :=
  { pts := Vector.ofFn fun i : Fin 24 => ((l.find? fun e => e.1 == i.val).map Prod.snd).getD 0, hit := hit, col := col }

/-- Trees as nested data, for comparison. -/
def flat : ActionNode → List Actions := fun t => extractNode t []

/-- The values of the first level. -/
def val : ActionNode → Act
  | .node v _ => v

/-! ## tests/encoding_test.rs -/

/-- The body of the three test functions, encoding_test.rs:26-33, 58-65, 84-91. -/
def roundTrip (roll : Int × Int) (player : Int) (a : Actions) : Bool :=
  let g := { initWithFields (mk []) player false with roll := roll }
  (match Inherent.encode .debug g a with
    | .ok e => decide (Inherent.decode .debug g e.toNat = .ok a)
    | .error _ => false) &&
  (match Trait.encode .debug g a with
    | .ok e => decide (Trait.decode .debug g e.toNat = .ok a)
    | .error _ => false)

-- encoding_test.rs:8
example : roundTrip (2, 1) (-1) [] = true := by decide +kernel
-- encoding_test.rs:9
example : roundTrip (2, 1) (-1) [(4, 2)] = true := by decide +kernel
-- encoding_test.rs:10
example : roundTrip (2, 1) (-1) [(4, 3)] = true := by decide +kernel
-- encoding_test.rs:11
example : roundTrip (2, 1) (-1) [(-1, 22)] = true := by decide +kernel
-- encoding_test.rs:12
example : roundTrip (2, 1) (-1) [(-1, 23)] = true := by decide +kernel
-- encoding_test.rs:13
example : roundTrip (2, 1) (-1) [(1, -1)] = true := by decide +kernel
-- encoding_test.rs:14
example : roundTrip (2, 1) (-1) [(0, -1)] = true := by decide +kernel
-- encoding_test.rs:15
example : roundTrip (6, 3) (-1) [(1, -1)] = true := by decide +kernel
-- encoding_test.rs:16
example : roundTrip (6, 3) (-1) [(2, -1)] = true := by decide +kernel
-- encoding_test.rs:17
example : roundTrip (2, 1) (1) [(19, 21)] = true := by decide +kernel
-- encoding_test.rs:18
example : roundTrip (2, 1) (1) [(19, 20)] = true := by decide +kernel
-- encoding_test.rs:19
example : roundTrip (2, 1) (1) [(-1, 1)] = true := by decide +kernel
-- encoding_test.rs:20
example : roundTrip (2, 1) (1) [(-1, 0)] = true := by decide +kernel
-- encoding_test.rs:21
example : roundTrip (2, 1) (1) [(22, -1)] = true := by decide +kernel
-- encoding_test.rs:22
example : roundTrip (2, 1) (1) [(23, -1)] = true := by decide +kernel
-- encoding_test.rs:23
example : roundTrip (6, 3) (1) [(22, -1)] = true := by decide +kernel
-- encoding_test.rs:24
example : roundTrip (6, 3) (1) [(21, -1)] = true := by decide +kernel
-- encoding_test.rs:40
example : roundTrip (2, 1) (-1) [(23, 21), (5, 4)] = true := by decide +kernel
-- encoding_test.rs:41
example : roundTrip (2, 1) (-1) [(-1, 22), (-1, 23)] = true := by decide +kernel
-- encoding_test.rs:42
example : roundTrip (2, 1) (-1) [(1, -1), (0, -1)] = true := by decide +kernel
-- encoding_test.rs:43
example : roundTrip (4, 6) (-1) [(1, -1), (0, -1)] = true := by decide +kernel
-- encoding_test.rs:44
example : roundTrip (2, 1) (-1) [(5, 4), (23, 21)] = true := by decide +kernel
-- encoding_test.rs:45
example : roundTrip (2, 1) (-1) [(-1, 23), (-1, 22)] = true := by decide +kernel
-- encoding_test.rs:46
example : roundTrip (2, 1) (-1) [(0, -1), (1, -1)] = true := by decide +kernel
-- encoding_test.rs:47
example : roundTrip (4, 6) (-1) [(0, -1), (1, -1)] = true := by decide +kernel
-- encoding_test.rs:48
example : roundTrip (2, 1) (1) [(1, 3), (21, 22)] = true := by decide +kernel
-- encoding_test.rs:49
example : roundTrip (2, 1) (1) [(-1, 1), (-1, 0)] = true := by decide +kernel
-- encoding_test.rs:50
example : roundTrip (2, 1) (1) [(22, -1), (23, -1)] = true := by decide +kernel
-- encoding_test.rs:51
example : roundTrip (4, 6) (1) [(22, -1), (23, -1)] = true := by decide +kernel
-- encoding_test.rs:52
example : roundTrip (2, 1) (1) [(4, 5), (21, 23)] = true := by decide +kernel
-- encoding_test.rs:53
example : roundTrip (2, 1) (1) [(-1, 0), (-1, 1)] = true := by decide +kernel
-- encoding_test.rs:54
example : roundTrip (2, 1) (1) [(23, -1), (22, -1)] = true := by decide +kernel
-- encoding_test.rs:55
example : roundTrip (4, 6) (1) [(23, -1), (22, -1)] = true := by decide +kernel
-- encoding_test.rs:71
example : roundTrip (6, 1) (-1) [(-1, 18), (18, 17)] = true := by decide +kernel
-- encoding_test.rs:72
example : roundTrip (6, 1) (-1) [(-1, 23), (23, 17)] = true := by decide +kernel
-- encoding_test.rs:73
example : roundTrip (6, 5) (-1) [(6, 0), (3, -1)] = true := by decide +kernel
-- encoding_test.rs:74
example : roundTrip (6, 5) (-1) [(6, 1), (3, -1)] = true := by decide +kernel
-- encoding_test.rs:75
example : roundTrip (6, 1) (1) [(-1, 5), (5, 6)] = true := by decide +kernel
-- encoding_test.rs:76
example : roundTrip (6, 1) (1) [(-1, 0), (0, 6)] = true := by decide +kernel
-- encoding_test.rs:77
example : roundTrip (6, 5) (1) [(17, 23), (20, -1)] = true := by decide +kernel
-- encoding_test.rs:78
example : roundTrip (6, 5) (1) [(17, 22), (20, -1)] = true := by decide +kernel
-- encoding_test.rs:79
example : roundTrip (4, 5) (-1) [(0, -1), (0, -1)] = true := by decide +kernel
-- encoding_test.rs:80
example : roundTrip (2, 1) (-1) [(0, -1), (0, -1)] = true := by decide +kernel
-- encoding_test.rs:81
example : roundTrip (6, 1) (1) [(21, -1)] = true := by decide +kernel
-- encoding_test.rs:82
example : roundTrip (4, 5) (1) [(0, 4), (0, 5)] = true := by decide +kernel
-- encoding_test.rs:83
example : roundTrip (5, 3) (1) [(22, -1), (18, 21)] = true := by decide +kernel

/-! ## tests/backgammon_test.rs -/

-- backgammon_test.rs:30 it_should_not_change_state_when_actions_empty
example : getNextState .debug initialBoard [] (1) = .ok (mk [2, 0, 0, 0, 0, -5, 0, -3, 0, 0, 0, 5, -5, 0, 0, 0, 3, 0, 5, 0, 0, 0, 0, -2] (0, 0) (0, 0)) := by decide +kernel
-- backgammon_test.rs:44 it_should_change_state_on_normal_move1
example : getNextState .debug initialBoard [(23, 21), (23, 20)] (-1) = .ok (mk [2, 0, 0, 0, 0, -5, 0, -3, 0, 0, 0, 5, -5, 0, 0, 0, 3, 0, 5, 0, -1, -1, 0, 0] (0, 0) (0, 0)) := by decide +kernel
-- backgammon_test.rs:58 it_should_change_state_on_normal_move2
example : getNextState .debug initialBoard [(0, 3), (0, 3)] (1) = .ok (mk [0, 0, 0, 2, 0, -5, 0, -3, 0, 0, 0, 5, -5, 0, 0, 0, 3, 0, 5, 0, 0, 0, 0, -2] (0, 0) (0, 0)) := by decide +kernel
-- backgammon_test.rs:72 it_should_change_state_when_player1_hit
example : getNextState .debug (mk [0, 0, 0, 0, 0, 0, 0, 0, 0, 0, 0, 0, 0, 0, 0, 0, 0, 0, -5, 0, 0, 1, 0, 1] (0, 0) (0, 0)) [(18, 21), (18, 23)] (-1) = .ok (mk [0, 0, 0, 0, 0, 0, 0, 0, 0, 0, 0, 0, 0, 0, 0, 0, 0, 0, -3, 0, 0, -1, 0, -1] (0, 2) (0, 0)) := by decide +kernel
-- backgammon_test.rs:92 it_should_change_state_when_player2_hit
example : getNextState .debug (mk [0, 0, 0, 0, 0, 5, 0, 0, -1, 0, -1, 0, 0, 0, 0, 0, 0, 0, 0, 0, 0, 0, 0, 0] (0, 0) (0, 0)) [(5, 8), (5, 10)] (1) = .ok (mk [0, 0, 0, 0, 0, 3, 0, 0, 1, 0, 1, 0, 0, 0, 0, 0, 0, 0, 0, 0, 0, 0, 0, 0] (2, 0) (0, 0)) := by decide +kernel
-- backgammon_test.rs:112 it_should_change_state_when_collecting_player1
example : getNextState .debug (mk [0, 0, 0, 0, 0, 0, 0, 0, 0, 0, 0, 0, 0, 0, 0, 0, 0, 0, 0, 0, 0, 0, 0, -2] (0, 0) (0, 0)) [(23, -1), (23, -1)] (-1) = .ok (mk [0, 0, 0, 0, 0, 0, 0, 0, 0, 0, 0, 0, 0, 0, 0, 0, 0, 0, 0, 0, 0, 0, 0, 0] (0, 0) (2, 0)) := by decide +kernel
-- backgammon_test.rs:132 it_should_change_state_when_collecting_player2
example : getNextState .debug (mk [0, 0, 0, 0, 0, 5, 0, 0, 0, 0, 0, 0, 0, 0, 0, 0, 0, 0, 0, 0, 0, 0, 0, 0] (0, 0) (0, 0)) [(5, -1), (5, -1)] (1) = .ok (mk [0, 0, 0, 0, 0, 3, 0, 0, 0, 0, 0, 0, 0, 0, 0, 0, 0, 0, 0, 0, 0, 0, 0, 0] (0, 0) (0, 2)) := by decide +kernel
-- backgammon_test.rs:152 it_should_change_state_playing_from_bar_player1
example : getNextState .debug (mk [0, 0, 0, 0, 0, 0, 0, 0, 0, 0, 0, 0, 0, 0, 0, 0, 0, 0, 0, 0, 0, 0, 0, 0] (2, 0) (0, 0)) [(-1, 23), (-1, 20)] (-1) = .ok (mk [0, 0, 0, 0, 0, 0, 0, 0, 0, 0, 0, 0, 0, 0, 0, 0, 0, 0, 0, 0, -1, 0, 0, -1] (0, 0) (0, 0)) := by decide +kernel
-- backgammon_test.rs:172 it_should_change_state_playing_from_bar_player2
example : getNextState .debug (mk [0, 0, 0, 0, 0, 0, 0, 0, 0, 0, 0, 0, 0, 0, 0, 0, 0, 0, 0, 0, 0, 0, 0, 0] (0, 2) (0, 0)) [(-1, 0), (-1, 3)] (1) = .ok (mk [1, 0, 0, 1, 0, 0, 0, 0, 0, 0, 0, 0, 0, 0, 0, 0, 0, 0, 0, 0, 0, 0, 0, 0] (0, 0) (0, 0)) := by decide +kernel
-- backgammon_test.rs:192 it_should_change_state_playing_from_bar_and_hitting_player1
example : getNextState .debug (mk [0, 0, 0, 0, 0, 0, 0, 0, 0, 0, 0, 0, 0, 0, 0, 0, 0, 0, 0, 0, 1, 0, 0, 1] (2, 0) (0, 0)) [(-1, 23), (-1, 20)] (-1) = .ok (mk [0, 0, 0, 0, 0, 0, 0, 0, 0, 0, 0, 0, 0, 0, 0, 0, 0, 0, 0, 0, -1, 0, 0, -1] (0, 2) (0, 0)) := by decide +kernel
-- backgammon_test.rs:212 it_should_change_state_playing_from_bar_and_hitting_player2
example : getNextState .debug (mk [-1, 0, 0, -1, 0, 0, 0, 0, 0, 0, 0, 0, 0, 0, 0, 0, 0, 0, 0, 0, 0, 0, 0, 0] (0, 2) (0, 0)) [(-1, 0), (-1, 3)] (1) = .ok (mk [1, 0, 0, 1, 0, 0, 0, 0, 0, 0, 0, 0, 0, 0, 0, 0, 0, 0, 0, 0, 0, 0, 0, 0] (2, 0) (0, 0)) := by decide +kernel
-- backgammon_test.rs:232 it_should_change_state_playing_from_bar_and_hitting_player2_2
example : getNextState .debug (mk [-1, -1, -1, 1, -1, -3, -3, 0, 0, 1, 0, 0, -1, 0, -1, -1, 4, 1, 5, -1, -1, 0, 0, 1] (0, 2) (0, 0)) [(-1, 3), (-1, 4)] (1) = .ok (mk [-1, -1, -1, 2, 1, -3, -3, 0, 0, 1, 0, 0, -1, 0, -1, -1, 4, 1, 5, -1, -1, 0, 0, 1] (1, 0) (0, 0)) := by decide +kernel

/-- The result of a test is `true`. -/
def ok (x : Res Bool) : Bool := decide (x = .ok true)

/-! ### get_normal_moves, backgammon_test.rs:252-513 -/

-- player1: 261, 270, 279, 290, 315, 330, 345, 365
example : ok (do let t ← getNormalMoves .debug [1] (pts [(20, -1)]) (-1); pure ((t.map val)[0]! == (20, 19))) = true := by decide +kernel
example : ok (do let t ← getNormalMoves .debug [1] (pts [(20, -1), (19, 2)]) (-1); pure t.isEmpty) = true := by decide +kernel
example : ok (do let t ← getNormalMoves .debug [1, 1] (pts [(20, -1)]) (-1); pure ((t.map flat)[0]! == [[(20, 19), (19, 18)]])) = true := by
  decide +kernel
example : ok (do let t ← getNormalMoves .debug [2, 1] (pts [(20, -1)]) (-1)
                 pure (t.map flat == [[[(20, 19), (19, 17)]], [[(20, 18), (18, 17)]]])) = true := by decide +kernel
example : ok (do let t ← getNormalMoves .debug [1] (pts [(0, -1)]) (-1); pure ((t.map flat)[0]! == [[(0, -1)]])) = true := by decide +kernel
example : ok (do let t ← getNormalMoves .debug [6] (pts [(0, -1)]) (-1); pure ((t.map flat)[0]! == [[(0, -1)]])) = true := by decide +kernel
example : ok (do let t ← getNormalMoves .debug [6, 1] (pts [(0, -1), (5, -1)]) (-1)
                 pure ((t.map flat).contains [[(0, -1), (5, -1)]])) = true := by decide +kernel
example : ok (do let t ← getNormalMoves .debug [6, 1] (pts [(0, -1), (4, -1)]) (-1)
                 pure ((extractSequencesList t).contains [(4, -1), (0, -1)])) = true := by decide +kernel
-- player2: 389, 398, 407, 418, 443, 458, 474, 494
example : ok (do let t ← getNormalMoves .debug [1] (pts [(10, 1)]) 1; pure ((t.map val)[0]! == (10, 11))) = true := by decide +kernel
example : ok (do let t ← getNormalMoves .debug [1] (pts [(10, 1), (11, -2)]) 1; pure t.isEmpty) = true := by decide +kernel
example : ok (do let t ← getNormalMoves .debug [1, 1] (pts [(10, 1)]) 1; pure ((t.map flat)[0]! == [[(10, 11), (11, 12)]])) = true := by
  decide +kernel
example : ok (do let t ← getNormalMoves .debug [2, 1] (pts [(10, 1)]) 1
                 pure (t.map flat == [[[(10, 11), (11, 13)]], [[(10, 12), (12, 13)]]])) = true := by decide +kernel
example : ok (do let t ← getNormalMoves .debug [1] (pts [(23, 1)]) 1; pure ((t.map flat)[0]! == [[(23, -1)]])) = true := by decide +kernel
example : ok (do let t ← getNormalMoves .debug [6] (pts [(23, 1)]) 1; pure ((t.map flat)[0]! == [[(23, -1)]])) = true := by decide +kernel
example : ok (do let t ← getNormalMoves .debug [6, 1] (pts [(23, 1), (18, 1)]) 1
                 pure ((t.map flat).contains [[(23, -1), (18, -1)]])) = true := by decide +kernel
example : ok (do let t ← getNormalMoves .debug [6, 1] (pts [(23, 1), (20, 1)]) 1
                 pure ((extractSequencesList t).contains [(20, -1), (23, -1)])) = true := by decide +kernel

/-! ### is_collectible and check_win, backgammon_test.rs:515-579 -/

example : isCollectible initialBoard (-1) = false ∧ isCollectible initialBoard 1 = false := by decide +kernel
example : isCollectible (pts [(0, -1), (23, 1)]) (-1) = true ∧ isCollectible (pts [(0, -1), (23, 1)]) 1 = true := by decide +kernel
example : isCollectible (pts [(0, -1), (23, 1)] (1, 1)) (-1) = false ∧ isCollectible (pts [(0, -1), (23, 1)] (1, 1)) 1 = false := by
  decide +kernel
example : checkWin initialBoard (-1) = false ∧ checkWin initialBoard 1 = false := by decide +kernel
example : checkWin (pts [] (0, 0) (15, 15)) (-1) = true ∧ checkWin (pts [] (0, 0) (15, 15)) 1 = true := by decide +kernel

/-! ### extract_sequences_node and extract_sequences_list, backgammon_test.rs:581-675 -/

example : ok (do let t ← getNormalMoves .debug [1] (pts [(10, 1)]) 1; pure ((t.map flat)[0]! == [[(10, 11)]])) = true := by decide +kernel
example : ok (do let t ← getNormalMoves .debug [1, 1] (pts [(20, -1), (23, -1)]) (-1)
                 pure ((t.map flat)[0]! == [[(20, 19), (19, 18)], [(20, 19), (23, 22)]])) = true := by decide +kernel
example : ok (do let t ← getNormalMoves .debug [1] (pts [(10, 1)]) 1; pure (extractSequencesList t == [[(10, 11)]])) = true := by
  decide +kernel
example : ok (do let t ← getNormalMoves .debug [1, 1] (pts [(20, -1)]) (-1)
                 pure (extractSequencesList t == [[(20, 19), (19, 18)]])) = true := by decide +kernel
example : ok (do let t ← getNormalMoves .debug [2, 1] (pts [(20, -1)]) (-1)
                 pure (extractSequencesList t == [[(20, 19), (19, 17)], [(20, 18), (18, 17)]])) = true := by decide +kernel
example : ok (do let t ← getNormalMoves .debug [2, 1] (pts [(20, -1), (19, 2), (16, -1)]) (-1)
                 pure (extractSequencesList t == [[(16, 15), (15, 13)], [(16, 15), (20, 18)], [(16, 14), (14, 13)],
                   [(20, 18), (16, 15)], [(20, 18), (18, 17)]])) = true := by decide +kernel

/-! ### remove_duplicate_states, backgammon_test.rs:678-735 -/

example : removeDuplicateStates .debug (pts [(20, -1)]) [[(20, 19)]] (-1) = .ok [[(20, 19)]] := by decide +kernel
example : removeDuplicateStates .debug (pts [(20, -1)]) [[(20, 19), (19, 18)]] (-1) = .ok [[(20, 19), (19, 18)]] := by decide +kernel
example : removeDuplicateStates .debug (pts [(20, -1)]) [[(20, 19), (19, 17)], [(20, 18), (18, 17)]] (-1) =
    .ok [[(20, 19), (19, 17)]] := by decide +kernel
example : removeDuplicateStates .debug (pts [(20, -1), (19, 1)]) [[(20, 19), (19, 17)], [(20, 18), (18, 17)]] (-1) =
    .ok [[(20, 19), (19, 17)], [(20, 18), (18, 17)]] := by decide +kernel

/-! ### get_entry_moves, backgammon_test.rs:738-864 -/

example : ok (do let t ← getEntryMoves .debug [] (pts [] (1, 0)) (-1); pure t.isEmpty) = true := by decide +kernel
example : ok (do let t ← getEntryMoves .debug [3] (pts [(21, 2)] (1, 0)) (-1); pure t.isEmpty) = true := by decide +kernel
example : ok (do let t ← getEntryMoves .debug [3] (pts [] (1, 0)) (-1); pure (t.map val == [(-1, 21)])) = true := by decide +kernel
example : ok (do let t ← getEntryMoves .debug [3, 2] (pts [(19, 2)] (1, 0)) (-1)
                 pure (t.map val == [(-1, 22), (-1, 21)])) = true := by decide +kernel
example : ok (do let t ← getEntryMoves .debug [] (pts [] (0, 1)) 1; pure t.isEmpty) = true := by decide +kernel
example : ok (do let t ← getEntryMoves .debug [3] (pts [(2, -2)] (0, 1)) 1; pure t.isEmpty) = true := by decide +kernel
example : ok (do let t ← getEntryMoves .debug [3] (pts [] (0, 1)) 1; pure (t.map val == [(-1, 2)])) = true := by decide +kernel
example : ok (do let t ← getEntryMoves .debug [3, 2] (pts [(4, -2)] (0, 1)) 1
                 pure (t.map val == [(-1, 1), (-1, 2)])) = true := by decide +kernel

/-! ### get_valid_moves, backgammon_test.rs:867-926 -/

/-- A state with the given board and roll. -/
def st (b : Board) (roll : Int × Int) : State := { new with board := b, roll := roll }

example : getValidMoves .debug (st (pts [(20, -1), (19, 2), (18, 2)]) (1, 2)) = .ok [] := by decide +kernel
example : getValidMoves .debug (st (pts [(20, -1)]) (1, 2)) = getValidMoves .debug (st (pts [(20, -1)]) (2, 1)) := by decide +kernel
example : getValidMoves .debug (st (pts [(20, -1)]) (1, 2)) = .ok [[(20, 19), (19, 17)]] := by decide +kernel
example : getValidMoves .debug (st (pts [(21, 2)] (1, 0)) (1, 2)) = .ok [[(-1, 23)], [(-1, 22)]] := by decide +kernel
/- `it_should_work_for_double_roll`, backgammon_test.rs:916-925, expects the four moves of a double in one play.  The code
plays a double as two plays of two moves (`is_second_play`), so the model, like the code, does not meet this test. -/
example : getValidMoves .debug (st (pts [(20, -1)]) (1, 1)) = .ok [[(20, 19), (19, 18)]] := by decide +kernel

/-! ## tests/tictactoe_test.rs -/

/-- A board with player -1 to move. -/
def ttt (l : List Int) : TTT.State := { TTT.new with board := Vector.ofFn fun i : Fin 9 => l.getD i 0 }

example : TTT.new.board.toList.sum = 0 ∧ TTT.new.player = -1 ∧ TTT.new.id = 0 := by decide +kernel
example : (TTT.applyMove .debug TTT.new 0).map (fun g => g.player) = .ok 1 := by decide +kernel
example : (TTT.applyMove .debug TTT.new 5).map (fun g => g.cell 5) = .ok (-1) := by decide +kernel
example : TTT.getValidMoves TTT.new = [0, 1, 2, 3, 4, 5, 6, 7, 8] := by decide +kernel
example : TTT.getValidMoves (ttt [1, 1, -1, -1, 1, 1, -1, -1, -1]) = [] := by decide +kernel
example : TTT.getValidMoves (ttt [1, 1, -1, -1, 1, 0, -1, 0, 0]) = [5, 7, 8] := by decide +kernel
example : TTT.checkWinner TTT.new = none := by decide +kernel
example : TTT.checkWinner (ttt [1, 1, -1, 1, -1, -1, -1, 0, 0]) = some (-1) := by decide +kernel
example : TTT.checkWinner (ttt [-1, -1, 1, -1, 1, -1, 1, 0, 0]) = some 1 := by decide +kernel

/-! ## tests/mcts_test.rs

The tests compare sums of rows with 1: the general statements are `C44` (priors) and `C39` (visit shares).  Here the
store of `get_prob_tensor::works_as_expected`, mcts_test.rs:38-59. -/

open DieE.Mcts in
/-- Some arithmetic (the values are not used by the test). -/
def unitFloats : Floats where
  F := Unit
  ofInt _ := ()
  add _ _ := ()
  inf := ()
  ucb _ _ _ := ()
  alphaUcb _ _ _ _ := ()
  winPct _ _ := ()
  cmp _ _ := .eq

open DieE.Mcts in
/-- A node of the test. -/
def node (idx : Nat) (parent : Option Nat) (action : Option Nat) (visits : Nat) (ch : List Nat) :
    Node (TTT.game .debug) unitFloats :=
  { state := TTT.new, idx, parent, children := ch, visits, value := (), policy := (), action, expandable := [] }

open DieE.Mcts in
/-- The store of the test. -/
def store : Store (TTT.game .debug) unitFloats :=
  node 0 none none 0 (List.range' 1 8) :: (List.range' 1 8).map fun i => node i (some 0) (some i) 10 []

open DieE.Mcts in
example : (getProbTensorParallel [node 0 none none 0 (List.range' 1 8)] store).map (fun rows => rows.map fun r => (rowSum 9 r, (List.range 9).map r)) =
    .ok [(some 1, [some 0, some (1/8), some (1/8), some (1/8), some (1/8), some (1/8), some (1/8), some (1/8), some (1/8)])] := by
  decide +kernel

end DieE.Tests
