import Verif.Game

/-!
# Model of the plain tree search

`src/mcts/node.rs`, `src/mcts/node_store.rs` and `src/mcts/simple_mcts.rs`, generic over the game.

Floating point numbers are opaque: a `Floats` is an arbitrary type with arbitrary operations, so the theorems hold
whatever the rounding, and also if some comparison involves a NaN.  The one exception is `visits`, which only ever
holds results of repeatedly adding `1.0` to `0.0`: it is a natural number that stops growing at `2^24`, exactly as an
`f32` does.
-/

namespace DieE.Mcts

/-- The `f32` arithmetic used by the searches. -/
structure Floats where
  /-- `f32` -/
  F : Type
  /-- the constants `1.`, `-1.`, `0.` -/
  ofInt : Int → F
  /-- `+` -/
  add : F → F → F
  /-- `f32::INFINITY` -/
  inf : F
  /-- node.rs:90-92 as a function of `value`, `visits`, `parent.visits` (with the configured `c`) -/
  ucb : F → Nat → Nat → F
  /-- node.rs:99-108 as a function of `value`, `visits`, `policy`, `parent.visits` -/
  alphaUcb : F → Nat → F → Nat → F
  /-- node.rs:115 as a function of `value`, `visits` -/
  winPct : F → Nat → F
  /-- `a.partial_cmp(&b).unwrap_or(Ordering::Equal)` -/
  cmp : F → F → Ordering

/-- `v + 1.0` for an `f32` holding the natural number `v`: from `2^24` on the sum rounds back to `v`. -/
def vinc (v : Nat) : Nat := if v < 16777216 then v + 1 else v

/-- `struct Node`, node.rs:9-19. -/
structure Node (G : Game) (Fl : Floats) where
  /-- position -/
  state : G.S
  /-- own index in the store -/
  idx : Nat
  /-- index of the parent -/
  parent : Option Nat
  /-- indices of the children -/
  children : List Nat
  /-- visit count -/
  visits : Nat
  /-- sum of the results -/
  value : Fl.F
  /-- prior -/
  policy : Fl.F
  /-- action leading here -/
  action : Option G.Mv
  /-- moves without a child yet -/
  expandable : List G.Mv

/-- `struct NodeStore`, node_store.rs:9-11. -/
abbrev Store (G : Game) (Fl : Floats) := List (Node G Fl)

variable {G : Game} {Fl : Floats}

/-- `Node::new`, node.rs:43-62. -/
def Node.new (state : G.S) (idx : Nat) (parent : Option Nat) (action : Option G.Mv) (policy : Fl.F) :
    Res (Node G Fl) := do
  let moves ← G.moves state
  pure { state, idx, parent, children := [], visits := 0, value := Fl.ofInt 0, policy, action, expandable := moves }

/-- `is_fully_expanded`, node.rs:78-80. -/
def Node.isFullyExpanded (n : Node G Fl) : Bool := n.expandable.isEmpty

/-- `is_terminal`, node.rs:82-84. -/
def Node.isTerminal (n : Node G Fl) : Bool := (G.winner n.state).isSome

/-- `add_node`, node_store.rs:34-45. -/
def addNode (st : Store G Fl) (state : G.S) (parent : Option Nat) (action : Option G.Mv) (policy : Fl.F) :
    Res (Store G Fl × Nat) := do
  let idx := st.length
  let n ← Node.new state idx parent action policy
  pure (st ++ [n], idx)

/-- `set_node`, node_store.rs:47-49. -/
def setNode (st : Store G Fl) (n : Node G Fl) : Res (Store G Fl) :=
  if n.idx < st.length then .ok (st.set n.idx n) else .error .indexOutOfBounds

/-- `get_node` and `get_node_ref`, node_store.rs:51-57. -/
def getNode (st : Store G Fl) (i : Nat) : Res (Node G Fl) :=
  match st[i]? with
  | some n => .ok n
  | none => .error .unwrapNone

/-- `get_node_as_mut`, node_store.rs:59-61, followed by the assignment of a new value through the reference. -/
def modifyNode (st : Store G Fl) (i : Nat) (f : Node G Fl → Node G Fl) : Res (Store G Fl) :=
  match st[i]? with
  | some n => .ok (st.set i (f n))
  | none => .error .indexOutOfBounds

/-- `get_root_nodes`, node_store.rs:30-32. -/
def getRootNodes (st : Store G Fl) : List (Node G Fl) := st.filter fun n => n.parent.isNone

/-- `ucb`, node.rs:86-96. -/
def Node.ucb (n : Node G Fl) (st : Store G Fl) : Res Fl.F :=
  match n.parent with
  | some p => do
    let parent ← getNode st p
    pure (Fl.ucb n.value n.visits parent.visits)
  | none => .ok Fl.inf

/-- `alpha_ucb`, node.rs:98-112. -/
def Node.alphaUcb (n : Node G Fl) (st : Store G Fl) : Res Fl.F :=
  match n.parent with
  | some p => do
    let parent ← getNode st p
    pure (Fl.alphaUcb n.value n.visits n.policy parent.visits)
  | none => .ok Fl.inf

/-- `win_pct`, node.rs:114-116. -/
def Node.winPct (n : Node G Fl) : Fl.F := Fl.winPct n.value n.visits

/-- `Iterator::max_by` with a comparison that may panic: `None` on the empty iterator, and of two elements comparing
equal the later one wins. -/
def maxBy {α : Type} (cmp : α → α → Res Ordering) : List α → Res (Option α)
  | [] => .ok none
  | a :: l => do
    let m ← l.foldlM (fun acc x => do
      let o ← cmp acc x
      pure (if o = .gt then acc else x)) a
    pure (some m)

/-- `expand`, node.rs:118-137: `n` is the caller's copy of the node (later uses of the copy do not occur).  Returns
the store and the index of the new child. -/
def expand (n : Node G Fl) (st : Store G Fl) : M (Store G Fl × Nat) :=
  match n.expandable.getLast? with
  | none => M.fail .explicitPanic
  | some a => do
    let next ← G.apply n.state a
    let (st, c) ← M.lift (addNode st next (some n.idx) (some a) (Fl.ofInt 0))
    let n := { n with expandable := n.expandable.dropLast, children := n.children ++ [c] }
    let st ← M.lift (setNode st n)
    pure (st, c)

/-- The value of an outcome for a player: simple_mcts.rs:26-28 and node.rs:182-184. -/
def outcome (winner player : Int) : Int :=
  if winner = player then 1 else if winner = -player then -1 else 0

/-- `simulate`, node.rs:176-196: `start` is `self.state`, `curr` the local `curr_state`.  The winner test in the loop
looks at `self.state`, not at `curr_state`. -/
def simulateLoop (start : G.S) (player : Int) : Nat → G.S → M Int
  | 0, _ => pure 0
  | n + 1, curr =>
    match G.winner start with
    | some w => pure (outcome w player)
    | none => do
      let ms ← M.lift (G.moves curr)
      match ← M.choose ms with
      | some a => do
        let next ← G.apply curr a
        simulateLoop start player n next
      | none => do
        let next ← G.skip curr
        simulateLoop start player n next

/-- `simulate`, node.rs:176-196. -/
def simulate (n : Node G Fl) (player : Int) (limit : Nat) : M Int := simulateLoop n.state player limit n.state

/-- `children.iter().map(|i| store.get_node(*i))`. -/
def childNodes (st : Store G Fl) (n : Node G Fl) : Res (List (Node G Fl)) := n.children.mapM (getNode st)

/-- `select_ucb`, simple_mcts.rs:41-52. -/
def selectUcb (i : Nat) (st : Store G Fl) : Res (Node G Fl) := do
  let node ← getNode st i
  let cs ← childNodes st node
  let best ← maxBy (fun a b => do
    let x ← a.ucb st
    let y ← b.ucb st
    pure (Fl.cmp x y)) cs
  match best with
  | some c => pure c
  | none => .error .explicitPanic

/-- `select_win_pct`, simple_mcts.rs:54-69. -/
def selectWinPct (i : Nat) (st : Store G Fl) : Res G.Mv := do
  let node ← getNode st i
  let cs ← childNodes st node
  let best ← maxBy (fun a b => .ok (Fl.cmp a.winPct b.winPct)) cs
  match best with
  | some c => pure (c.action.getD G.emptyMove)
  | none => pure G.emptyMove

/-- `select_most_visits`, simple_mcts.rs:71-86. -/
def selectMostVisits (i : Nat) (st : Store G Fl) : Res G.Mv := do
  let node ← getNode st i
  let cs ← childNodes st node
  let best ← maxBy (fun a b => .ok (compare a.visits b.visits)) cs
  match best with
  | some c => pure (c.action.getD G.emptyMove)
  | none => pure G.emptyMove

/-- `select_leaf_node`, simple_mcts.rs:88-94, with a bound on the recursion. -/
def selectLeaf (st : Store G Fl) : Nat → Nat → Res Nat
  | 0, _ => .error .fuel
  | f + 1, i => do
    let node ← getNode st i
    if node.children.isEmpty || !node.isFullyExpanded then pure node.idx
    else do
      let c ← selectUcb i st
      selectLeaf st f c.idx

/-- `select_leaf_node` as called: the store has `st.length` nodes, so a path has at most that many. -/
def selectLeafNode (i : Nat) (st : Store G Fl) : Res Nat := selectLeaf st st.length i

/-- The two assignments of `backpropagate`, simple_mcts.rs:98-99. -/
def Node.record (result : Fl.F) (n : Node G Fl) : Node G Fl :=
  { n with visits := vinc n.visits, value := Fl.add n.value result }

/-- `backpropagate`, simple_mcts.rs:96-103, with a bound on the recursion. -/
def backLoop (result : Fl.F) : Nat → Nat → Store G Fl → Res (Store G Fl)
  | 0, _, _ => .error .fuel
  | f + 1, i, st => do
    let st ← modifyNode st i (Node.record result)
    let n ← getNode st i
    match n.parent with
    | some p => backLoop result f p st
    | none => pure st

/-- `backpropagate` as called. -/
def backpropagate (i : Nat) (result : Fl.F) (st : Store G Fl) : Res (Store G Fl) :=
  backLoop result st.length i st

/-- One iteration of `mct_search`, simple_mcts.rs:20-37.  Besides the store it returns the index handed to
`backpropagate`; the search ignores it, theorems use it to speak about the run. -/
def iteration (player : Int) (limit : Nat) (root : Nat) (st : Store G Fl) : M (Store G Fl × Nat) := do
  let i ← M.lift (selectLeafNode root st)
  let sel ← M.lift (getNode st i)
  match G.winner sel.state with
  | some w => do
    let st ← M.lift (backpropagate i (Fl.ofInt (outcome w player)) st)
    pure (st, i)
  | none => do
    let (st, c) ← expand sel st
    let new ← M.lift (getNode st c)
    let value ← simulate new player limit
    let st ← M.lift (backpropagate c (Fl.ofInt value) st)
    pure (st, c)

/-- The loop of `mct_search`, simple_mcts.rs:20; the second component lists the indices handed to `backpropagate`. -/
def iterate (player : Int) (limit : Nat) (root : Nat) : Nat → Store G Fl → List Nat → M (Store G Fl × List Nat)
  | 0, st, tr => pure (st, tr)
  | n + 1, st, tr => do
    let (st, k) ← iteration player limit root st
    iterate player limit root n st (tr ++ [k])

/-- The search up to and including its loop, simple_mcts.rs:16-37. -/
def buildTree (Fl : Floats) (state : G.S) (player : Int) (iterations limit : Nat) : M (Store G Fl × List Nat) := do
  let (st, root) ← M.lift (addNode (Fl := Fl) [] state none none (Fl.ofInt 0))
  iterate player limit root iterations st []

/-- `mct_search`, simple_mcts.rs:10-39. -/
def mctSearch (Fl : Floats) (state : G.S) (player : Int) (iterations limit : Nat) : M G.Mv :=
  match G.winner state with
  | some _ => pure G.emptyMove
  | none => do
    let (st, _) ← buildTree Fl state player iterations limit
    M.lift (selectMostVisits 0 st)

end DieE.Mcts
