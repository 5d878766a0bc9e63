import Verif.Prelude

/-!
# Model of `src/backgammon/backgammon_logic.rs`

Every definition cites the lines it models.  Player `-1` is "player 1" of the user interface (moves towards index 0,
checkers are negative entries), player `1` is "player 2" (moves towards index 23, positive entries).
-/

namespace DieE.BG

/-- `pub type Board = ([i8; 24], (u8, u8), (u8, u8))`: points, pieces hit, pieces collected.
backgammon_logic.rs:9-10. The entries are mathematical integers; the machine ranges are enforced by the operations. -/
structure Board where
  pts : Vector Int 24
  hit : Int × Int
  col : Int × Int
  deriving DecidableEq, Repr

/-- One checker move `(from, to)`; `to = -1` is a collection, `from = -1` an entry from the bar.
backgammon_logic.rs:11-12. -/
abbrev Act := Int × Int

/-- `pub type Actions = Vec<(i8, i8)>`, backgammon_logic.rs:12. -/
abbrev Actions := List Act

/-- The entry of point `i` (0 outside the board: only used under a range check or in specifications). -/
def Board.pt (b : Board) (i : Int) : Int :=
  if 0 ≤ i ∧ i < 24 then (b.pts[i.toNat]?).getD 0 else 0

/-- The board with entry `i` replaced. -/
def Board.setPt (b : Board) (i v : Int) : Board :=
  if 0 ≤ i ∧ i < 24 then { b with pts := b.pts.setIfInBounds i.toNat v } else b

/-- `board[i as usize]` as an expression: a negative `i8` becomes a huge `usize`, so it panics like any index ≥ 24. -/
def Board.get (b : Board) (i : Int) : Res Int :=
  if 0 ≤ i ∧ i < 24 then .ok (b.pt i) else .error .indexOutOfBounds

/-- `board[i as usize] = v`. -/
def Board.put (b : Board) (i v : Int) : Res Board :=
  if 0 ≤ i ∧ i < 24 then .ok (b.setPt i v) else .error .indexOutOfBounds

/-- `state.0[i as usize] += d` (or `-=` with `-d`), `i8` arithmetic. -/
def Board.addPt (pf : Profile) (b : Board) (i d : Int) : Res Board := do
  let v ← b.get i
  let w ← i8 pf (v + d)
  b.put i w

/-- `state.1 .0 += d` (`u8`). -/
def Board.addHit1 (pf : Profile) (b : Board) (d : Int) : Res Board := do
  let v ← u8 pf (b.hit.1 + d)
  pure { b with hit := (v, b.hit.2) }

/-- `state.1 .1 += d` (`u8`). -/
def Board.addHit2 (pf : Profile) (b : Board) (d : Int) : Res Board := do
  let v ← u8 pf (b.hit.2 + d)
  pure { b with hit := (b.hit.1, v) }

/-- `state.2 .0 += 1` (`u8`). -/
def Board.incCol1 (pf : Profile) (b : Board) : Res Board := do
  let v ← u8 pf (b.col.1 + 1)
  pure { b with col := (v, b.col.2) }

/-- `state.2 .1 += 1` (`u8`). -/
def Board.incCol2 (pf : Profile) (b : Board) : Res Board := do
  let v ← u8 pf (b.col.2 + 1)
  pure { b with col := (b.col.1, v) }

/-- The body of the loop of `get_next_state` for one action. backgammon_logic.rs:469-515. -/
def playOne (pf : Profile) (player : Int) (s : Board) (a : Act) : Res Board :=
  if a.2 = -1 then do
    -- Player is collecting a checker (470-480)
    let s ← s.addPt pf a.1 (-player)
    if player = -1 then s.incCol1 pf else s.incCol2 pf
  else if a.1 = -1 then do
    -- Playing from the bar (482-500)
    let t ← s.get a.2
    let opp ← i8 pf (-player)
    if t = opp then
      let s ← s.put a.2 player
      if player = -1 then do
        let s ← s.addHit2 pf 1
        s.addHit1 pf (-1)
      else do
        let s ← s.addHit1 pf 1
        s.addHit2 pf (-1)
    else if player = -1 then do
      let s ← s.addPt pf a.2 (-1)
      s.addHit1 pf (-1)
    else do
      let s ← s.addPt pf a.2 1
      s.addHit2 pf (-1)
  else do
    let t ← s.get a.2
    let opp ← i8 pf (-player)
    if t = opp then do
      -- Hitting the opponent's checker (501-509)
      let s ← s.put a.2 player
      let s ← s.addPt pf a.1 (-player)
      if player = -1 then s.addHit2 pf 1 else s.addHit1 pf 1
    else do
      -- Moving a checker from one position to another (510-514)
      let s ← s.addPt pf a.2 player
      s.addPt pf a.1 (-player)

/-- `get_next_state`, backgammon_logic.rs:467-517. -/
def getNextState (pf : Profile) (state : Board) (actions : Actions) (player : Int) : Res Board :=
  actions.foldlM (playOne pf player) state

/-- `get_initial_state` / the board of `new`, backgammon_logic.rs:82-88 and 454-462. -/
def initialBoard : Board where
  pts := #v[2, 0, 0, 0, 0, -5, 0, -3, 0, 0, 0, 5, -5, 0, 0, 0, 3, 0, 5, 0, 0, 0, 0, -2]
  hit := (0, 0)
  col := (0, 0)

/-- `check_win`, backgammon_logic.rs:519-525. -/
def checkWin (state : Board) (player : Int) : Bool :=
  if player = -1 then state.col.1 == 15 else state.col.2 == 15

/-- `check_win_without_player`, backgammon_logic.rs:527-534. -/
def checkWinWithoutPlayer (state : Board) : Option Int :=
  if state.col.1 = 15 then some (-1)
  else if state.col.2 = 15 then some 1
  else none

/-- `get_pieces_hit`, backgammon_logic.rs:536-542. -/
def getPiecesHit (state : Board) (player : Int) : Int :=
  if player = -1 then state.hit.1 else state.hit.2

/-- `is_collectible`, backgammon_logic.rs:638-659 (`for i in 6..=23` / `for i in 0..=17`). -/
def isCollectible (board : Board) (player : Int) : Bool :=
  if player = -1 then
    if board.hit.1 ≠ 0 then false
    else (List.range' 6 18).all fun i => ! decide (board.pt i < 0)
  else if player = 1 then
    if board.hit.2 ≠ 0 then false
    else (List.range' 0 18).all fun i => ! decide (board.pt i > 0)
  else true

/-- Element of `possible_actions: Vec<(i8, (i8, i8))>`: the die used and the checker move. -/
abbrev DieAct := Int × Act

/-- The derived lexicographic order on `(i8, (i8, i8))`. -/
def lexLe (x y : DieAct) : Bool :=
  decide (x.1 < y.1) || (x.1 == y.1 && (decide (x.2.1 < y.2.1) || (x.2.1 == y.2.1 && decide (x.2.2 ≤ y.2.2))))

/-- Insertion into a sorted list (auxiliary to `sortActs`). -/
def insertAct (x : DieAct) : List DieAct → List DieAct
  | [] => [x]
  | y :: ys => if lexLe x y then x :: y :: ys else y :: insertAct x ys

/-- `sort_unstable()`: the sorted permutation is unique because the order is total on tuples.
backgammon_logic.rs:619, 685. -/
def sortActs : List DieAct → List DieAct
  | [] => []
  | x :: xs => insertAct x (sortActs xs)

/-- `dedup()`: drops an element equal to its predecessor. backgammon_logic.rs:620, 686. -/
def dedupActs : List DieAct → List DieAct
  | [] => []
  | [x] => [x]
  | x :: y :: ys => if x = y then dedupActs (y :: ys) else x :: dedupActs (y :: ys)

/-- `board[lo..hi]`. -/
def Board.slice (b : Board) (lo hi : Nat) : Res (List Int) :=
  if lo ≤ hi ∧ hi ≤ 24 then .ok ((List.range' lo (hi - lo)).map fun (i : Nat) => b.pt i)
  else .error .indexOutOfBounds

/-- `.iter().sum::<i8>()`. -/
def sumI8 (pf : Profile) (l : List Int) : Res Int :=
  l.foldlM (fun acc x => i8 pf (acc + x)) 0

/-- The inner loop `for m_idx in (0..point).rev()` of the collection moves of player `-1`;
the list holds the remaining values of `m_idx`. backgammon_logic.rs:571-579. -/
def collectLow (pf : Profile) (b : Board) (m : Int) : List Nat → Res (List DieAct)
  | [] => .ok []
  | i :: is => do
    let n ← b.get i
    let sl ← b.slice (i + 1) 6
    let leftSum ← sumI8 pf sl
    if n < 0 ∧ leftSum ≥ 0 then pure [(m, ((i : Int), -1))]
    else collectLow pf b m is

/-- The inner loop `for m_idx in point..=23` of the collection moves of player `1`. backgammon_logic.rs:588-596. -/
def collectHigh (pf : Profile) (b : Board) (m : Int) : List Nat → Res (List DieAct)
  | [] => .ok []
  | i :: is => do
    let n ← b.get i
    let sl ← b.slice 18 i
    let leftSum ← sumI8 pf sl
    if n > 0 ∧ leftSum ≤ 0 then pure [(m, ((i : Int), -1))]
    else collectHigh pf b m is

/-- Collection moves of player `-1` for one die `r`. backgammon_logic.rs:563-580. -/
def collectMoves1 (pf : Profile) (b : Board) (r : Int) : Res (List DieAct) := do
  let m := asI8 r
  let point ← i8 pf (m - 1)
  let n ← b.get point
  let exact := if n < 0 then [(m, (point, -1))] else []
  let rest ← collectLow pf b m (List.range point.toNat).reverse
  pure (exact ++ rest)

/-- Collection moves of player `1` for one die `r`. backgammon_logic.rs:582-597. -/
def collectMoves2 (pf : Profile) (b : Board) (r : Int) : Res (List DieAct) := do
  let m := asI8 r
  let point ← i8 pf (24 - m)
  let n ← b.get point
  let exact := if n > 0 then [(m, (point, -1))] else []
  let rest ← collectHigh pf b m (List.range' point.toNat (24 - point.toNat))
  pure (exact ++ rest)

/-- The non-collecting move of die `m` from `point`, if any. backgammon_logic.rs:601-616. -/
def normalAt (pf : Profile) (b : Board) (player m : Int) (point : Nat) : Res (List DieAct) :=
  let n := b.pt point
  if player = -1 ∧ n ≤ player then do
    let d ← i8 pf ((point : Int) - m)
    if d ≥ 0 then
      let t ← b.get d
      if t ≤ 1 then pure [(m, ((point : Int), d))] else pure []
    else pure []
  else if player = 1 ∧ n ≥ player then do
    let d ← i8 pf ((point : Int) + m)
    if d ≤ 23 then
      let t ← b.get d
      if t ≥ -1 then pure [(m, ((point : Int), d))] else pure []
    else pure []
  else pure []

/-- The collection part of `possible_actions`. backgammon_logic.rs:561-598. -/
def collectActions (pf : Profile) (moves : List Int) (state : Board) (player : Int) : Res (List (List DieAct)) :=
  if player = -1 ∧ isCollectible state player = true then moves.mapM (collectMoves1 pf state)
  else if player = 1 ∧ isCollectible state player = true then moves.mapM (collectMoves2 pf state)
  else pure []

/-- `possible_actions` of `get_normal_moves` before sorting. backgammon_logic.rs:558-617. -/
def normalActions (pf : Profile) (moves : List Int) (state : Board) (player : Int) : Res (List DieAct) := do
  let collects ← collectActions pf moves state player
  let normals ← moves.mapM fun r => do
    let l ← (List.range 24).mapM (normalAt pf state player (asI8 r))
    pure l.flatten
  pure (collects.flatten ++ normals.flatten)

/-- `possible_actions` of `get_entry_moves` for one die. backgammon_logic.rs:668-682. -/
def entryFor (pf : Profile) (state : Board) (player : Int) (r : Int) : Res (List DieAct) :=
  let m := asI8 r
  if player = -1 then do
    let point ← i8 pf (24 - m)
    let n ← state.get point
    if n < 2 then pure [(m, (-1, point))] else pure []
  else if player = 1 then do
    let point ← i8 pf (m - 1)
    let n ← state.get point
    if n > -2 then pure [(m, (-1, point))] else pure []
  else pure []

/-- `possible_actions` of `get_entry_moves` before sorting. backgammon_logic.rs:665-682. -/
def entryActions (pf : Profile) (moves : List Int) (state : Board) (player : Int) : Res (List DieAct) := do
  let l ← moves.mapM (entryFor pf state player)
  pure l.flatten

/-- `pub struct ActionNode { value, children }`, backgammon_logic.rs:15-19. -/
inductive ActionNode where
  | node (value : Act) (children : List ActionNode)
  deriving Repr

/-- `position(|&m| m == move_used).unwrap()` followed by `remove`. backgammon_logic.rs:714-716. -/
def removeMove : List Int → Int → Res (List Int)
  | [], _ => .error .unwrapNone
  | m :: ms, u => if m = u then .ok ms else do
    let r ← removeMove ms u
    pure (m :: r)

/-- `_get_children_of_node_action`, backgammon_logic.rs:705-720; `rec` is the recursive call to
`_get_action_trees`. -/
def childrenOf (pf : Profile) (rec : List Int → Board → Res (List ActionNode)) (moves : List Int) (moveUsed : Int)
    (action : Act) (state : Board) (player : Int) : Res (List ActionNode) := do
  let newState ← getNextState pf state [action] player
  let newMoves ← removeMove moves moveUsed
  rec newMoves newState

/-- The loop `for action in possible_actions` building the trees. backgammon_logic.rs:622-635, 688-702. -/
def buildTrees (pf : Profile) (rec : List Int → Board → Res (List ActionNode)) (moves : List Int) (state : Board)
    (player : Int) (acts : List DieAct) : Res (List ActionNode) :=
  acts.mapM fun a => do
    let ch ← childrenOf pf rec moves (asU8 a.1) a.2 state player
    pure (.node a.2 ch)

/-- `get_normal_moves`, backgammon_logic.rs:555-636, with the recursive call abstracted. -/
def normalTrees (pf : Profile) (rec : List Int → Board → Res (List ActionNode)) (moves : List Int) (state : Board)
    (player : Int) : Res (List ActionNode) := do
  let acts ← normalActions pf moves state player
  buildTrees pf rec moves state player (dedupActs (sortActs acts))

/-- `get_entry_moves`, backgammon_logic.rs:662-703, with the recursive call abstracted. -/
def entryTrees (pf : Profile) (rec : List Int → Board → Res (List ActionNode)) (moves : List Int) (state : Board)
    (player : Int) : Res (List ActionNode) := do
  let acts ← entryActions pf moves state player
  buildTrees pf rec moves state player (dedupActs (sortActs acts))

/-- `_get_action_trees`, backgammon_logic.rs:544-552.  The Rust recursion is bounded by the number of dice left; the
first argument is that bound. -/
def actionTrees (pf : Profile) (player : Int) : Nat → List Int → Board → Res (List ActionNode)
  | 0, moves, state =>
    if getPiecesHit state player > 0 then entryTrees pf (fun _ _ => .error .fuel) moves state player
    else normalTrees pf (fun _ _ => .error .fuel) moves state player
  | n + 1, moves, state =>
    if getPiecesHit state player > 0 then entryTrees pf (actionTrees pf player n) moves state player
    else normalTrees pf (actionTrees pf player n) moves state player

/-- `_get_action_trees(moves, state, player)` with the bound it needs. -/
def getActionTrees (pf : Profile) (moves : List Int) (state : Board) (player : Int) : Res (List ActionNode) :=
  actionTrees pf player moves.length moves state

/-- `pub fn get_normal_moves`, backgammon_logic.rs:555-636. -/
def getNormalMoves (pf : Profile) (moves : List Int) (state : Board) (player : Int) : Res (List ActionNode) :=
  normalTrees pf (actionTrees pf player (moves.length - 1)) moves state player

/-- `pub fn get_entry_moves`, backgammon_logic.rs:662-703. -/
def getEntryMoves (pf : Profile) (moves : List Int) (state : Board) (player : Int) : Res (List ActionNode) :=
  entryTrees pf (actionTrees pf player (moves.length - 1)) moves state player

mutual
/-- `extract_sequences_helper`, backgammon_logic.rs:734-750. -/
def extractNode : ActionNode → Actions → List Actions
  | .node v ch, cur => if ch.isEmpty then [cur ++ [v]] else extractChildren ch (cur ++ [v])
/-- The loop over `node.children` of `extract_sequences_helper` (743-746) and, with an empty prefix, the loop of
`extract_sequences_list` (722-728) over `extract_sequences_node` (730-732). -/
def extractChildren : List ActionNode → Actions → List Actions
  | [], _ => []
  | c :: cs, cur => extractNode c cur ++ extractChildren cs cur
end

/-- `extract_sequences_list`, backgammon_logic.rs:722-728. -/
def extractSequencesList (l : List ActionNode) : List Actions := extractChildren l []

/-- The loop of `remove_duplicate_states`; `seen` is the content of the `HashSet`. backgammon_logic.rs:761-771. -/
def removeDuplicateLoop (pf : Profile) (init : Board) (player : Int) : List Actions → List Board → Res (List Actions)
  | [], _ => .ok []
  | q :: qs, seen => do
    let s ← q.foldlM (fun s a => getNextState pf s [a] player) init
    if s ∈ seen then removeDuplicateLoop pf init player qs seen
    else do
      let r ← removeDuplicateLoop pf init player qs (s :: seen)
      pure (q :: r)

/-- `remove_duplicate_states`, backgammon_logic.rs:752-774. -/
def removeDuplicateStates (pf : Profile) (init : Board) (seqs : List Actions) (player : Int) : Res (List Actions) :=
  removeDuplicateLoop pf init player seqs []

/-- `pub struct Backgammon`, backgammon_logic.rs:53-60. -/
structure State where
  board : Board
  roll : Int × Int
  player : Int
  second : Bool
  id : Nat
  deriving DecidableEq, Repr

/-- `LearnableGame::new`, backgammon_logic.rs:80-94. -/
def new : State where
  board := initialBoard
  roll := (0, 0)
  player := -1
  second := false
  id := 0

/-- `init_with_fields`, backgammon_logic.rs:419-427. -/
def initWithFields (board : Board) (player : Int) (second : Bool) : State where
  board := board
  roll := (0, 0)
  player := player
  second := second
  id := 0

/-- `roll_die`, backgammon_logic.rs:100-104, with the two numbers drawn given explicitly. -/
def rollWith (g : State) (dice : Int × Int) : State := { g with roll := dice }

/-- `check_winner`, backgammon_logic.rs:106-108. -/
def checkWinner (g : State) : Option Int := checkWinWithoutPlayer g.board

/-- `apply_move`, backgammon_logic.rs:176-186; `dice` are the numbers drawn by `roll_die` if it is called. -/
def applyMove (pf : Profile) (g : State) (actions : Actions) (dice : Int × Int) : Res State := do
  let next ← getNextState pf g.board actions g.player
  let g := { g with board := next }
  if g.roll.1 = g.roll.2 ∧ g.second = false then
    pure { g with second := true }
  else do
    let p ← i8 pf (g.player * -1)
    pure (rollWith { g with second := false, player := p } dice)

/-- `skip_turn`, backgammon_logic.rs:192-196. -/
def skipTurn (pf : Profile) (g : State) (dice : Int × Int) : Res State := do
  let p ← i8 pf (g.player * -1)
  pure (rollWith { g with second := false, player := p } dice)

/-- The dice in the order used by `get_valid_moves`, backgammon_logic.rs:406-409. -/
def allMoves (roll : Int × Int) : List Int :=
  if roll.1 > roll.2 then [roll.1, roll.2] else [roll.2, roll.1]

/-- `get_valid_moves`, backgammon_logic.rs:403-414. -/
def getValidMoves (pf : Profile) (g : State) : Res (List Actions) := do
  assert (decide (g.roll ≠ (0, 0)))
  let trees ← getActionTrees pf (allMoves g.roll) g.board g.player
  removeDuplicateStates pf g.board (extractSequencesList trees) g.player

/-- The counting loop of `is_valid` (438-444) over the points `0..=23`. -/
def isValidCount (pf : Profile) (b : Board) : List Nat → Int × Int → Res (Int × Int)
  | [], acc => .ok acc
  | i :: is, (t1, t2) => do
    let v := b.pt i
    if v < 0 then do
      let t ← i8 pf (t1 - v)
      isValidCount pf b is (t, t2)
    else if v > 0 then do
      let t ← i8 pf (t2 + v)
      isValidCount pf b is (t1, t)
    else isValidCount pf b is (t1, t2)

/-- `is_valid`, backgammon_logic.rs:433-452 (the `println!` is not modelled). -/
def isValid (pf : Profile) (g : State) : Res Unit := do
  let (t1, t2) ← isValidCount pf g.board (List.range 24) (0, 0)
  let t1 ← i8 pf (t1 + asI8 g.board.hit.1)
  let t1 ← i8 pf (t1 + asI8 g.board.col.1)
  let t2 ← i8 pf (t2 + asI8 g.board.hit.2)
  let t2 ← i8 pf (t2 + asI8 g.board.col.2)
  assert (decide (t1 = 15 ∧ t2 = 15))

end DieE.BG
