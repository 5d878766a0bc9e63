import Verif.Mcts.Probs

/-!
# Model of the self-play loops

`self_play_parallel` of `src/alphazero/alpha_parallel.rs` and `self_play` of `src/alphazero/alpha_no_parallel.rs`,
generic over the game.  Progress bars and printing are left out.  The iteration order of the `HashMap` of games is an
arbitrary permutation in every round (`iter` and `values_mut` of an unchanged map visit the entries in the same order).  The variable
`turns` is added to the model to speak about the games.
-/

namespace DieE.Train
open DieE.Mcts

/-- `struct MemoryFragment`, alphazero.rs:66-70. -/
structure Frag where
  /-- outcome; until the game ends, the player who recorded the fragment -/
  outcome : Int
  /-- search probabilities -/
  ps : Row
  /-- encoded state -/
  state : Tensor Int

/-- The parts of the configuration used by the self-play loops. -/
structure SelfPlayConfig where
  /-- `mcts_config.iterations` -/
  iterations : Nat
  /-- `mcts_config.simulate_round_limit` -/
  limit : Nat
  /-- `x ↦ x^(1 / config.temperature)` -/
  pw : Rat → Rat

/-- A turn of a self-play game. -/
inductive Turn (G : Game) where
  /-- the turn is passed -/
  | skip (s s' : G.S)
  /-- move `a`, chosen by probabilities `ps` -/
  | move (s : G.S) (ps : Row) (a : G.Mv) (s' : G.S)

/-- Local variables of `self_play_parallel`, and a history variable. -/
structure SelfPlay (G : Game) where
  /-- `memories` -/
  mems : List (List Frag)
  /-- `n_rounds` -/
  rounds : List Nat
  /-- `all_memories` -/
  all : List Frag
  /-- `states_to_remove` -/
  remove : List Nat
  /-- not in the code: the turns played in each game; nothing depends on them -/
  turns : Nat → List (Turn G)

/-- `v[i]` of a `Vec`. -/
def index {α : Type} (v : List α) (i : Nat) : Res α :=
  match v[i]? with
  | some x => .ok x
  | none => .error .indexOutOfBounds

/-- The fragments with new outcomes, alpha_parallel.rs:173-177 and 216-220. -/
def relabel (f : Int → Int) (l : List Frag) : List Frag := l.map fun m => { m with outcome := f m.outcome }

variable {G : Game} {Fl : Floats}

/-- The round limit, alpha_parallel.rs:172-180: there is no `continue`. -/
def checkLimit (limit i : Nat) (sp : SelfPlay G) : Res (SelfPlay G) := do
  let r ← index sp.rounds i
  if r ≥ limit then do
    let mem ← index sp.mems i
    pure { sp with all := sp.all ++ relabel (fun _ => 0) mem, remove := sp.remove ++ [i] }
  else pure sp

/-- `n_rounds[*init_idx] += 1`. -/
def addRound (i : Nat) (sp : SelfPlay G) : Res (SelfPlay G) := do
  let r ← index sp.rounds i
  pure { sp with rounds := sp.rounds.set i (r + 1) }

/-- The history of game `i` gets another turn (not in the code). -/
def record (i : Nat) (t : Turn G) (sp : SelfPlay G) : SelfPlay G :=
  { sp with turns := fun j => if j = i then sp.turns i ++ [t] else sp.turns j }

/-- The label of a fragment, alpha_parallel.rs:217. -/
def label (winner recorded : Int) : Int := if winner = recorded then 1 else if winner = -recorded then -1 else 0

/-- The body of the loop over the states, alpha_parallel.rs:168-224: `row` is the tempered row and `root` the root of
the state with initial index `i`. -/
def playState (cfg : SelfPlayConfig) (row : Row) (root : Node G Fl) (i : Nat) (s : G.S) (sp : SelfPlay G) :
    M (G.S × SelfPlay G) := do
  let sp ← M.lift (checkLimit cfg.limit i sp)
  if !(rowSum G.actionSpace row).isNonzero || root.children.isEmpty then do
    let sp ← M.lift (addRound i sp)
    let s' ← G.skip s
    pure (s', record i (.skip s s') sp)
  else do
    let c ← weightedSelect G.actionSpace row
    let x ← M.lift (G.tensor s)
    let mem ← M.lift (index sp.mems i)
    let sp := { sp with mems := sp.mems.set i (mem ++ [{ outcome := G.player s, ps := row, state := x }]) }
    let a ← M.lift (G.decode s c)
    let ms ← M.lift (G.moves s)
    M.lift (assert (decide (a ∈ ms)))
    let s' ← G.apply s a
    let sp ← M.lift (addRound i sp)
    let sp := record i (.move s row a s') sp
    match G.winner s' with
    | some w => do
      let mem ← M.lift (index sp.mems i)
      pure (s', { sp with all := sp.all ++ relabel (label w) mem, remove := sp.remove ++ [i] })
    | none => pure (s', sp)

/-- The loop over `states.values_mut().enumerate()`, alpha_parallel.rs:168-225: the first argument is `processed_idx`,
the list holds the entries of the map. -/
def playStates (cfg : SelfPlayConfig) (rows : List Row) (st : Store G Fl) : Nat → List (Nat × G.S) → SelfPlay G →
    M (List (Nat × G.S) × SelfPlay G)
  | _, [], sp => pure ([], sp)
  | k, (i, s) :: rest, sp => do
    let row ← M.lift (match rows[k]? with
      | some r => .ok r
      | none => .error .tensorError)
    let root ← M.lift (getNode st k)
    let (s, sp) ← playState cfg (temper cfg.pw row) root i s sp
    let (rest, sp) ← playStates cfg rows st (k + 1) rest sp
    pure ((i, s) :: rest, sp)

/-- One pass of the `while` loop, alpha_parallel.rs:131-229; `games` is the iteration order of the hash set inside the
search. -/
def selfRound (net : Net Fl) (cfg : SelfPlayConfig) (games : List Nat) (pool : List (Nat × G.S)) (sp : SelfPlay G) :
    M (List (Nat × G.S) × SelfPlay G) := do
  let st ← alphaMctsParallel net games (pool.map Prod.snd) cfg.iterations ([] : Store G Fl)
  let roots ← M.lift ((List.range pool.length).mapM (getNode st))
  let rows ← M.lift (getProbTensorParallel roots st)
  let (pool, sp) ← playStates cfg rows st 0 pool { sp with remove := [] }
  pure (pool.filter (fun e => decide (e.1 ∉ sp.remove)), sp)

/-- The orders in which the hash map and the hash sets of a run are iterated, by round. -/
structure Orders (G : Game) where
  /-- the map of games -/
  map : Nat → List (Nat × G.S) → List (Nat × G.S)
  /-- the set of game indices of the search -/
  set : Nat → Nat → List Nat

/-- They are orders of the same elements. -/
structure Orders.Valid (o : Orders G) : Prop where
  map : ∀ k l, (o.map k l).Perm l
  set : ∀ k n, (o.set k n).Perm (List.range n)

/-- The `while` loop, alpha_parallel.rs:131-229, with a bound on the number of passes; the second argument counts the
passes. -/
def selfLoop (net : Net Fl) (cfg : SelfPlayConfig) (o : Orders G) : Nat → Nat → List (Nat × G.S) → SelfPlay G →
    M (SelfPlay G)
  | f, k, pool, sp =>
    if pool.isEmpty then pure sp
    else match f with
      | 0 => M.fail .fuel
      | f + 1 => do
        let (pool, sp) ← selfRound net cfg (o.set k pool.length) (o.map k pool) sp
        selfLoop net cfg o f (k + 1) pool sp

/-- A new game, alpha_parallel.rs:105-108. -/
def start (G : Game) : M G.S := if G.deterministic then pure G.new else G.roll G.new

/-- The initial games, alpha_parallel.rs:103-111. -/
def startAll (G : Game) : List Nat → M (List (Nat × G.S))
  | [] => pure []
  | i :: is => do
    let s ← start G
    let l ← startAll G is
    pure ((i, s) :: l)

/-- The local variables at the end of `self_play_parallel`, alpha_parallel.rs:101-231, for `n` games; `f` bounds the
number of passes of the loop. -/
def selfPlayRun (net : Net Fl) (cfg : SelfPlayConfig) (o : Orders G) (n f : Nat) : M (SelfPlay G) := do
  let pool ← startAll G (List.range n)
  selfLoop net cfg o f 0 pool
    { mems := List.replicate n [], rounds := List.replicate n 0, all := [], remove := [], turns := fun _ => [] }

/-- `self_play_parallel`, alpha_parallel.rs:101-231. -/
def selfPlayParallel (net : Net Fl) (cfg : SelfPlayConfig) (o : Orders G) (n f : Nat) : M (List Frag) := do
  let sp ← selfPlayRun net cfg o n f
  pure sp.all

/-! ## The single-game loop -/

/-- The label of a fragment, alpha_no_parallel.rs:76. -/
def labelSingle (winner recorded : Int) : Int := if recorded = winner then 1 else -1

/-- The loop of `self_play`, alpha_no_parallel.rs:45-82, with a bound on the number of turns; `search` stands for
`alpha_mcts` (`None`, or the probabilities).  The turns are returned besides the fragments (not in the code). -/
def selfPlayLoop (search : G.S → M (Option Row)) (pw : Rat → Rat) : Nat → G.S → List Frag → List (Turn G) →
    M (List Frag × List (Turn G))
  | 0, _, _, _ => M.fail .fuel
  | f + 1, s, mem, l => do
    let r ← search s
    match r with
    | none => do
      let s' ← G.skip s
      selfPlayLoop search pw f s' mem (l ++ [.skip s s'])
    | some pi => do
      -- `pow_` works in place, so the fragment keeps the tempered row
      let row := temper pw pi
      let c ← weightedSelect G.actionSpace row
      let x ← M.lift (G.tensor s)
      let mem := mem ++ [{ outcome := G.player s, ps := row, state := x }]
      let a ← M.lift (G.decode s c)
      let s' ← G.apply s a
      let l := l ++ [.move s row a s']
      match G.winner s' with
      | some w => pure (relabel (labelSingle w) mem, l)
      | none => selfPlayLoop search pw f s' mem l

/-- `self_play`, alpha_no_parallel.rs:32-83. -/
def selfPlaySingle (search : G.S → M (Option Row)) (pw : Rat → Rat) (f : Nat) : M (List Frag × List (Turn G)) := do
  let s ← start G
  selfPlayLoop search pw f s [] []

end DieE.Train
