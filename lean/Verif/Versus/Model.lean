import Verif.Train.SelfPlay

/-!
# Model of the matches between two players

`play` and `get_actions_for_player` of `src/versus.rs` and the gate of `src/alphazero/alpha_versus.rs`, generic over the
game.  Progress bars and printing are left out.  The map of games is a partial function on the keys; the order of its
iteration is an arbitrary permutation of its keys in every round.  The counters of wins are exact (the code counts in
`f64`).  The variable `steps` is added to the model to speak about the games.
-/

namespace DieE.Versus
open DieE.Mcts

/-- `enum Agent`, versus.rs:17-20. -/
inductive Agent where
  | random
  | mcts
  | model
  | none
  deriving DecidableEq, Repr

/-- `struct Player`, versus.rs:125-128. -/
structure Player (Fl : Floats) where
  /-- `player_type` -/
  agent : Agent
  /-- `model` -/
  net : Option (Net Fl)

/-- The parts of the configuration used in a match. -/
structure Config where
  /-- `mcts_config.iterations` -/
  iterations : Nat
  /-- `mcts_config.simulate_round_limit` -/
  limit : Nat
  /-- `x ↦ x^(1 / temp)` -/
  pw : Rat → Rat

variable {G : Game} {Fl : Floats}

/-- `store.get_root_nodes` is `Mcts.getRootNodes`; the choice of an action for each root, versus.rs:286-302. -/
def chooseAll (pw : Rat → Rat) : List (Node G Fl) → List Row → M (List G.Mv)
  | [], _ => pure []
  | _ :: _, [] => M.fail .tensorError
  | root :: roots, row :: rows => do
    let row := temper pw row
    let a ← (if !(rowSum G.actionSpace row).isNonzero || root.children.isEmpty then pure G.emptyMove
      else do
        let c ← weightedSelect G.actionSpace row
        M.lift (G.decode root.state c) : M G.Mv)
    let as ← chooseAll pw roots rows
    pure (a :: as)

/-- A random legal move, versus.rs:309-315. -/
def randomAction (s : G.S) : M G.Mv := do
  let ms ← M.lift (G.moves s)
  let a ← M.choose ms
  pure (a.getD G.emptyMove)

/-- The actions for all games, in order. -/
def eachGame (f : G.S → M G.Mv) : List G.S → M (List G.Mv)
  | [] => pure []
  | s :: ss => do
    let a ← f s
    let as ← eachGame f ss
    pure (a :: as)

/-- `get_actions_for_player`, versus.rs:270-319; `order` is the iteration order of the hash set inside the search. -/
def getActions (pl : Player Fl) (cfg : Config) (order : Nat → List Nat) (games : List G.S) : M (List G.Mv) :=
  if games.isEmpty then pure []
  else match pl.agent with
    | .model => do
      let net ← M.lift (match pl.net with
        | some n => .ok n
        | none => .error .unwrapNone)
      let st ← alphaMctsParallel net (order games.length) games cfg.iterations ([] : Store G Fl)
      let roots := getRootNodes st
      let rows ← M.lift (getProbTensorParallel roots st)
      chooseAll cfg.pw roots rows
    | .mcts => eachGame (fun s => mctSearch Fl s (G.player s) cfg.iterations cfg.limit) games
    | .random => eachGame randomAction games
    | .none => M.fail .unreachableCode

/-- `struct Turn`, versus.rs:22-26. -/
structure Turn (G : Game) where
  /-- `roll` -/
  roll : Option (Int × Int)
  /-- `action` -/
  action : List G.S
  /-- `player` -/
  player : Agent

/-- `struct Game`, versus.rs:28-36; the random `id` is represented by the key of the game in the map. -/
structure Rec (G : Game) where
  /-- `id` -/
  key : Nat
  /-- `player1` -/
  player1 : Agent
  /-- `player2` -/
  player2 : Agent
  /-- `turns` -/
  turns : List (Turn G)
  /-- `winner` -/
  winner : Agent
  /-- `initial_state` -/
  initial : G.S

/-- `Game::new`, versus.rs:43-52. -/
def Rec.new (key : Nat) (a1 a2 : Agent) (s : G.S) : Rec G :=
  { key := key, player1 := a1, player2 := a2, turns := [], winner := .none, initial := s }

/-- A step of a game (history variable): the action of player 1 (`first`) or player 2 in a state. -/
structure Step (G : Game) where
  /-- chosen by player 1 -/
  first : Bool
  /-- state before -/
  before : G.S
  /-- action -/
  action : G.Mv
  /-- state after -/
  after : G.S

/-- Local variables of `play`, and a history variable. -/
structure Match (G : Game) where
  /-- `games` -/
  games : Nat → Option (G.S × Rec G)
  /-- `games_played` -/
  played : List (Rec G)
  /-- `wins_p1` -/
  wins1 : Nat
  /-- `wins_p2` -/
  wins2 : Nat
  /-- not in the code: the steps of each game -/
  steps : Nat → List (Step G)

/-- The keys of the map. -/
def Match.keys (n : Nat) (m : Match G) : List Nat := (List.range n).filter fun i => (m.games i).isSome

/-- The initial state of game `idx`, versus.rs:171-179. -/
def initState (G : Game) (n idx : Nat) : M G.S := do
  let s ← (if idx ≥ n / 2 then G.skip G.new else pure G.new : M G.S)
  let s ← (if !G.deterministic then G.roll s else pure s : M G.S)
  pure (G.setId s idx)

/-- The initial map, versus.rs:170-182. -/
def initGames (a1 a2 : Agent) (n : Nat) : List Nat → (Nat → Option (G.S × Rec G)) → M (Nat → Option (G.S × Rec G))
  | [], g => pure g
  | i :: is, g => do
    let s ← initState G n i
    initGames a1 a2 n is fun j => if j = i then some (s, Rec.new i a1 a2 s) else g j

/-- The entry of the map and the history of game `i` are replaced. -/
def Match.put (m : Match G) (i : Nat) (s : G.S) (r : Rec G) (st : Step G) : Match G :=
  { m with
    games := fun j => if j = i then some (s, r) else m.games j
    steps := fun j => if j = i then m.steps i ++ [st] else m.steps j }

/-- The body of the loop over actions and games, versus.rs:220-256; `remove` is `games_to_remove`. -/
def playAction (a1 a2 : Agent) (limit round : Nat) (first : Bool) (a : G.Mv) (g : G.S) (m : Match G) (remove : List Nat) :
    M (Match G × List Nat) := do
  let i := G.id g
  let (s, r) ← M.lift (match m.games i with
    | some e => .ok e
    | none => .error .unwrapNone)
  if a = G.emptyMove then do
    let s' ← G.skip s
    pure (m.put i s' r ⟨first, s, a, s'⟩, remove)
  else do
    let ms ← M.lift (G.moves s)
    M.lift (assert (decide (a ∈ ms)))
    let s' ← G.apply s a
    let winner := match G.winner s' with
      | some w => some w
      | none => if round ≥ limit then some 0 else none
    match winner with
    | none => pure (m.put i s' r ⟨first, s, a, s'⟩, remove)
    | some w =>
      if w = -1 then
        pure ({ m.put i s' { r with winner := a1 } ⟨first, s, a, s'⟩ with wins1 := m.wins1 + 1 }, remove ++ [i])
      else if w = -(-1) then
        pure ({ m.put i s' { r with winner := a2 } ⟨first, s, a, s'⟩ with wins2 := m.wins2 + 1 }, remove ++ [i])
      else pure (m.put i s' { r with winner := .none } ⟨first, s, a, s'⟩, remove ++ [i])

/-- The loop over actions and games, versus.rs:220-256. -/
def playActions (a1 a2 : Agent) (limit round : Nat) : List (Bool × G.Mv × G.S) → Match G → List Nat → M (Match G × List Nat)
  | [], m, remove => pure (m, remove)
  | (first, a, g) :: l, m, remove => do
    let (m, remove) ← playAction a1 a2 limit round first a g m remove
    playActions a1 a2 limit round l m remove

/-- The finished games are taken out of the map, versus.rs:257-260. -/
def removeGames : List Nat → Match G → Res (Match G)
  | [], m => .ok m
  | i :: is, m => match m.games i with
    | none => .error .unwrapNone
    | some e => removeGames is { m with games := fun j => if j = i then none else m.games j, played := m.played ++ [e.2] }

/-- What the players do, in round `k`. -/
abbrev Acts (G : Game) := Nat → List G.S → M (List G.Mv)

/-- One pass of the `while` loop, versus.rs:191-261: `order` is the iteration order of the map, `k` the number of the
round (`round_count` before it is increased). -/
def playRound (a1 a2 : Agent) (acts1 acts2 : Acts G) (limit : Nat) (order : List Nat) (k : Nat) (m : Match G) :
    M (Match G) := do
  let states := order.filterMap fun i => (m.games i).map Prod.fst
  let (games1, games2) := states.partition fun s => decide (G.player s = -1)
  let actions1 ← acts1 k games1
  let actions2 ← acts2 k games2
  let (m, remove) ← playActions a1 a2 limit (k + 1)
    ((actions1.zip games1).map (fun x => (true, x.1, x.2)) ++ (actions2.zip games2).map (fun x => (false, x.1, x.2))) m []
  M.lift (removeGames remove m)

/-- The `while` loop, versus.rs:190-261, with a bound on the number of passes. -/
def playLoop (a1 a2 : Agent) (acts1 acts2 : Acts G) (n limit : Nat) (order : Nat → List Nat → List Nat) : Nat → Nat →
    Match G → M (Match G)
  | f, k, m =>
    if (m.keys n).isEmpty then pure m
    else match f with
      | 0 => M.fail .fuel
      | f + 1 => do
        let m ← playRound a1 a2 acts1 acts2 limit (order k (m.keys n)) k m
        playLoop a1 a2 acts1 acts2 n limit order f (k + 1) m

/-- The local variables at the end of `play`, for `n` games. -/
def playRun (a1 a2 : Agent) (acts1 acts2 : Acts G) (n limit : Nat) (order : Nat → List Nat → List Nat) (f : Nat) :
    M (Match G) := do
  let games ← initGames a1 a2 n (List.range n) fun _ => none
  playLoop a1 a2 acts1 acts2 n limit order f 0 { games := games, played := [], wins1 := 0, wins2 := 0, steps := fun _ => [] }

/-- `struct PlayResult`, versus.rs:130-140. -/
structure PlayResult (G : Game) where
  /-- `player1` -/
  player1 : Agent
  /-- `player2` -/
  player2 : Agent
  /-- `wins_p1` -/
  wins1 : Nat
  /-- `wins_p2` -/
  wins2 : Nat
  /-- `draws` -/
  draws : Nat
  /-- `n_games` -/
  nGames : Nat
  /-- `winrate` -/
  winrate : Rat
  /-- `games` -/
  games : List (Rec G)

/-- `a - b` of `usize`. -/
def usizeSub (pf : Profile) (a b : Nat) : Res Nat :=
  if b ≤ a then .ok (a - b)
  else match pf with
    | .debug => .error .overflow
    | .release => .ok (a + 2 ^ 64 - b)

/-- The result of a match, versus.rs:263-275; `rnd` is the rounding of the division. -/
def result (pf : Profile) (rnd : Rat → Rat) (a1 a2 : Agent) (n : Nat) (m : Match G) : Res (PlayResult G) := do
  let draws ← usizeSub pf n (m.wins1 + m.wins2)
  pure { player1 := a1, player2 := a2, wins1 := m.wins1, wins2 := m.wins2, draws := draws, nGames := n,
         winrate := rnd (m.wins1 / n), games := m.played }

/-- The iteration orders of the hash map of the games and of the hash sets of the two searches, by round. -/
structure Orders where
  /-- the map of games -/
  map : Nat → List Nat → List Nat
  /-- the set in the search of player 1 -/
  set1 : Nat → Nat → List Nat
  /-- the set in the search of player 2 -/
  set2 : Nat → Nat → List Nat

/-- They are orders of the same elements. -/
structure Orders.Valid (o : Orders) : Prop where
  map : ∀ k l, (o.map k l).Perm l
  set1 : ∀ k n, (o.set1 k n).Perm (List.range n)
  set2 : ∀ k n, (o.set2 k n).Perm (List.range n)

/-- `play`, versus.rs:160-275, with `n` games (400 in the code) and the given round limit (400 in the code); `f` bounds
the number of passes of the loop. -/
def playN (pf : Profile) (rnd : Rat → Rat) (p1 p2 : Player Fl) (cfg : Config) (n limit : Nat) (o : Orders) (f : Nat) :
    M (PlayResult G) := do
  let m ← playRun p1.agent p2.agent (fun k => getActions p1 cfg (o.set1 k)) (fun k => getActions p2 cfg (o.set2 k)) n limit
    o.map f
  M.lift (result pf rnd p1.agent p2.agent n m)

/-- `play`, versus.rs:160-275. -/
def play (pf : Profile) (rnd : Rat → Rat) (p1 p2 : Player Fl) (cfg : Config) (o : Orders) (f : Nat) : M (PlayResult G) :=
  playN pf rnd p1 p2 cfg 400 400 o f

/-! ## The gate -/

/-- `play_vs_model`, alpha_versus.rs:57-81; the network of this trainer is copied. -/
def playVsModel (pf : Profile) (rnd : Rat → Rat) (cfg : Config) (o : Orders) (f : Nat) (G : Game) (self other : Net Fl) :
    M (Option Nat) := do
  let r ← play (G := G) pf rnd { agent := .model, net := some self } { agent := .model, net := some other } cfg o f
  pure (if r.winrate ≥ rnd (55 / 100) then some 1 else if r.winrate ≤ rnd (45 / 100) then some 2 else none)

/-- `play_vs_best_model`, alpha_versus.rs:16-55: `best` is the stored best model, the result the one stored
afterwards.  Saving succeeds (failures are only printed). -/
def playVsBest (pf : Profile) (rnd : Rat → Rat) (cfg : Config) (o : Orders) (f : Nat) (G : Game) (self : Net Fl)
    (best : Option (Net Fl)) : M (Option (Net Fl)) :=
  match best with
  | none => pure (some self)
  | some b => do
    let r ← playVsModel pf rnd cfg o f G self b
    let better ← (match r with
      | some 1 => pure true
      | some 2 => pure false
      | none => pure false
      | some _ => M.fail .unreachableCode : M Bool)
    pure (some (if better then self else b))

end DieE.Versus
