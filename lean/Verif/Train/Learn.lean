import Verif.Train.Data
import Verif.Versus.Model

/-!
# Model of the training runs

`learn_parallel` of `src/alphazero/alpha_parallel.rs`, `learn` of `src/alphazero/alpha_no_parallel.rs`,
`play_vs_best_model` of `src/alphazero/alpha_versus.rs` and the train command of `src/main.rs`, on top of the models of
self-play, of the training data and of matches.  The weights of the network are an arbitrary type; a model file holds
weights, and loading one into a new network gives the same weights (this is C62; that the path given on the command line
is ignored is C61).  Of the files only the data of the run and the directory of the models are modelled: saving a model
fails exactly if that directory does not exist, other input/output errors are left out.  Run ids are left out.
-/

namespace DieE.Train
open DieE.Mcts

/-- What a training run works with. -/
structure Setup (Fl : Floats) (W : Type) where
  /-- the network with given weights, `self.model` -/
  net : W → Net Fl
  /-- some variable has a NaN entry, alpha_parallel.rs:83 -/
  nan : W → Bool
  /-- forward pass, losses with their assertions and optimizer step on a batch, alphazero.rs:239-259 -/
  step : W → Tensor Int × Tensor Val × Tensor Int → Res W
  /-- `mcts_config` and `config.temperature` -/
  play : SelfPlayConfig
  /-- `config.num_self_play_batches` -/
  games : Nat
  /-- `config.self_play_iterations` -/
  selfPlays : Nat
  /-- `config.num_epochs` -/
  epochs : Nat
  /-- `config.learn_iterations` -/
  learns : Nat
  /-- `config.training_batch_size` -/
  batch : Nat
  /-- build profile -/
  pf : Profile
  /-- rounding of the win rate -/
  rnd : Rat → Rat

/-- The configuration of the matches, alpha_versus.rs:72. -/
def Setup.versus {Fl : Floats} {W : Type} (S : Setup Fl W) : Versus.Config :=
  { iterations := S.play.iterations, limit := S.play.limit, pw := S.play.pw }

/-- Choices of a run beyond the tape: iteration orders of hash maps and sets, and shuffles. -/
structure Chance (G : Game) where
  /-- of self-play, by learn iteration and self-play iteration -/
  play : Nat → Nat → Orders G
  /-- the shuffle of an epoch, by learn iteration and epoch -/
  shuffle : Nat → Nat → List Mem → List Mem
  /-- of the match, by learn iteration -/
  match' : Nat → Versus.Orders

/-- They are orders, and shuffling keeps the fragments. -/
structure Chance.Valid {G : Game} (c : Chance G) : Prop where
  play : ∀ i j, (c.play i j).Valid
  shuffle : ∀ i e l, (c.shuffle i e l).Perm l
  match' : ∀ i, (c.match' i).Valid

/-- The directory `./models/{name}`: its files, if it exists. -/
abbrev Models (W : Type) := Option (Name → Option W)

/-- `vs.save(path)` for a path in the directory; an error is only printed. -/
def saveModel {W : Type} (ms : Models W) (n : Name) (w : W) : Models W := ms.map fun f m => if m = n then some w else f m

/-- `model_{i}.ot` -/
def modelName (i : Nat) : Name := ['m', 'o', 'd', 'e', 'l', '_'] ++ digits i ++ ['.', 'o', 't']
/-- `best_model.ot` -/
def bestName : Name := ['b', 'e', 's', 't', '_', 'm', 'o', 'd', 'e', 'l', '.', 'o', 't']
/-- `trained_model.ot` -/
def trainedName : Name := ['t', 'r', 'a', 'i', 'n', 'e', 'd', '_', 'm', 'o', 'd', 'e', 'l', '.', 'o', 't']

variable {G : Game} {Fl : Floats} {W : Type}

/-- The self-play iterations of a learn iteration, alpha_parallel.rs:48-68: how many are left, index of the next one,
`memory`.  Returns the results of `self_play_parallel` (not in the code), the entries of the learn directory and
`memory`. -/
def selfPlays (S : Setup Fl W) (o : Nat → Orders G) (w : W) : Nat → Nat → List Mem →
    M (List (List Frag) × List (Name × Tree) × List Mem)
  | 0, _, memory => pure ([], [], memory)
  | k + 1, j, memory => do
    let res ← selfPlayParallel (S.net w) S.play (o j) S.games (S.play.limit + 1)
    let memory := memory ++ res.map (Frag.mem G.actionSpace)
    let d ← M.lift (saveTrainingData memory)
    let r ← selfPlays S o w k (j + 1) memory
    pure (res :: r.1, (spName j, d) :: r.2.1, r.2.2)

/-- The epochs, alpha_parallel.rs:78-81 and alpha_no_parallel.rs:15-17: how many are left, index of the next one.
Returns the shuffled memories (not in the code) and the weights. -/
def trainEpochs (S : Setup Fl W) (shuffle : Nat → List Mem → List Mem) : Nat → Nat → List Mem → W →
    Res (List (List Mem) × W)
  | 0, _, _, w => .ok ([], w)
  | k + 1, e, memory, w => do
    let memory := shuffle e memory
    let w ← train S.pf S.batch S.step memory w
    let r ← trainEpochs S shuffle k (e + 1) memory w
    pure (memory :: r.1, r.2)

/-- `play_vs_best_model`, alpha_versus.rs:16-57; `f` bounds the rounds of the match. -/
def playBest (S : Setup Fl W) (G : Game) (o : Versus.Orders) (f : Nat) (w : W) (ms : Models W) : M (Models W) :=
  match ms.bind (fun d => d bestName) with
  | none => pure (saveModel ms bestName w)
  | some b => do
    let r ← Versus.playVsModel S.pf S.rnd S.versus o f G (S.net w) (S.net b)
    let better ← (match r with
      | some 1 => pure true
      | some 2 => pure false
      | none => pure false
      | some _ => M.fail .unreachableCode : M Bool)
    pure (if better then saveModel ms bestName w else ms)

/-- What a learn iteration has done. -/
structure Iter (W : Type) where
  /-- weights before -/
  before : W
  /-- results of `self_play_parallel` -/
  results : List (List Frag)
  /-- entries of the learn directory -/
  dir : List (Name × Tree)
  /-- memory at each epoch -/
  epochs : List (List Mem)
  /-- weights afterwards -/
  after : W
  /-- models afterwards -/
  models : Models W

/-- A learn iteration, alpha_parallel.rs:41-98. -/
def learnIteration (S : Setup Fl W) (c : Chance G) (f i : Nat) (w : W) (ms : Models W) : M (Iter W) := do
  let r ← selfPlays S (c.play i) w S.selfPlays 0 []
  let e ← M.lift (trainEpochs S (c.shuffle i) S.epochs 0 r.2.2 w)
  M.lift (assert (!S.nan e.2))
  let ms ← playBest S G (c.match' i) f e.2 (saveModel ms (modelName i) e.2)
  pure { before := w, results := r.1, dir := r.2.1, epochs := e.1, after := e.2, models := ms }

/-- The learn iterations: how many are left, index of the next one. -/
def learnLoop (S : Setup Fl W) (c : Chance G) (f : Nat) : Nat → Nat → W → Models W → M (List (Iter W))
  | 0, _, _, _ => pure []
  | k + 1, i, w, ms => do
    let it ← learnIteration S c f i w ms
    let l ← learnLoop S c f k (i + 1) it.after it.models
    pure (it :: l)

/-- `learn_parallel`, alpha_parallel.rs:17-99: the iterations of the run. -/
def learnParallel (S : Setup Fl W) (c : Chance G) (f : Nat) (w : W) (ms : Models W) : M (List (Iter W)) :=
  learnLoop S c f S.learns 0 w ms

/-- The weights at the end of a run. -/
def lastWeights (w : W) (l : List (Iter W)) : W := (l.getLast?.map Iter.after).getD w

/-- The models at the end of a run. -/
def lastModels (ms : Models W) (l : List (Iter W)) : Models W := (l.getLast?.map Iter.models).getD ms

/-- The entries of the run directory. -/
def runEntries : Nat → List (Iter W) → List (Name × Tree)
  | _, [] => []
  | i, it :: l => (lrnName i, .dir it.dir) :: runEntries (i + 1) l

/-! ## The run without batches -/

/-- The self-play iterations of `learn`, alpha_no_parallel.rs:10-14; `search` is `alpha_mcts`, `f` bounds the turns of
a game. -/
def selfPlaysSingle (search : G.S → M (Option Row)) (pw : Rat → Rat) (f : Nat) : Nat → List Mem → M (List Mem)
  | 0, memory => pure memory
  | k + 1, memory => do
    let r ← selfPlaySingle search pw f
    selfPlaysSingle search pw f k (memory ++ r.1.map (Frag.mem G.actionSpace))

/-- `learn`, alpha_no_parallel.rs:8-30: iterations left, index of the next one.  There is no check for NaN and no match
against the best model. -/
def learnSingle (S : Setup Fl W) (search : W → G.S → M (Option Row)) (shuffle : Nat → Nat → List Mem → List Mem) (f : Nat) :
    Nat → Nat → W → Models W → M (W × Models W)
  | 0, _, w, ms => pure (w, ms)
  | k + 1, i, w, ms => do
    let memory ← selfPlaysSingle (search w) S.play.pw f S.selfPlays []
    let e ← M.lift (trainEpochs S (shuffle i) S.epochs 0 memory w)
    learnSingle S search shuffle f k (i + 1) e.2 (saveModel ms (modelName i) e.2)

/-! ## The train command -/

/-- The train command, main.rs:172-207, on the data directory `root`; `w` are the weights of the new network
(`AlphaZero::from_config`), `out` says whether an output path in an existing directory is given.  Returns the weights
written to the output path, and the models. -/
def trainCommand (S : Setup Fl W) (shuffle : List Mem → List Mem) (root : Tree) (run lrn sp : Option Name) (w : W)
    (out : Bool) (ms : Models W) : Res (Option W × Models W) := do
  let data ← trainingData root run lrn sp
  let w ← train S.pf S.batch S.step (shuffle data) w
  if out then pure (some w, ms)
  else match ms with
    | none => .error .explicitPanic
    | some _ => pure (none, saveModel ms trainedName w)

end DieE.Train
