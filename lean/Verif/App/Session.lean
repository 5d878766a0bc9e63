import Verif.App.Main
import Verif.Train.Output

/-!
# The program, run several times

`learn` and `train` of `src/main.rs:119-122, 166-207` with the files they read and write and the text they print, and the
program as a whole on the files left by its earlier runs.  A file of a network holds a text (`store`); reading it back is
`Env.load`.  The training data is kept apart from the other files, as a tree for each game.

Simplified as `App.main`; also: creating directories for the training data does not fail, run ids are new, the library saves
and loads files as `Fs.write` and `Fs.text` do.  The text of the device, of floats (`{:?}`) and of errors of the library are
parameters.  The initial weights and the state of the optimizer are those of a new network; the path of the model only has
to name a readable file, its contents are not used (C61).
-/

namespace DieE.App
open DieE.Train (Name digits Setup Chance Tree Iter Mem Out Content modelName bestName trainedName)
open DieE.Text DieE.Versus DieE.Fp

/-- What training needs. -/
structure Trainer (E : Env) where
  /-- the state of the optimizer -/
  O : Type
  /-- the contents of the file written by `vs.save` -/
  store : E.W → Name
  /-- the file can be read into a store without variables -/
  readable : Name → Bool
  /-- a variable has a NaN entry -/
  nan : E.W → Bool
  /-- forward pass, losses with their assertions, optimizer step -/
  step : Config.OptimizerParams Num → E.W × O → Tensor Int × Tensor Val × Tensor Int → Res (E.W × O)
  /-- `{:?}` of the device -/
  device : Name
  /-- `{:?}` of a float -/
  float : Num → Name
  /-- text of an error of the library -/
  err : Name

/-- What is kept between the runs of the program. -/
structure World where
  /-- all files but the training data -/
  fs : Fs
  /-- the entries of `./data/{name}`, if it exists -/
  data : Cli.Which → Option (List (Name × Tree))

/-- `T::name()`, backgammon_logic.rs:96, tictactoe/mod.rs:32. -/
def gameName : Cli.Which → Name
  | .backgammon => lit "backgammon"
  | .ticTacToe => lit "tictactoe"

/-- `./models/{name}` -/
def modelDir (w : Cli.Which) : Name := lit "./models/" ++ gameName w

/-- `./models/{name}/{file}` -/
def modelPath (w : Cli.Which) (n : Name) : Name := modelDir w ++ ['/'] ++ n

/-! ## `AlphaZero::from_config` -/

/-- `{:?}` of `AlphaZeroConfig`, alphazero.rs:23-31. -/
def azText (fl : Num → Name) (c : Config.AlphaZeroConfig Num) : Name :=
  lit "AlphaZeroConfig { temperature: " ++ fl c.temperature ++ lit ", learn_iterations: " ++ digits c.learnIterations ++
    lit ", self_play_iterations: " ++ digits c.selfPlayIterations ++ lit ", num_epochs: " ++ digits c.numEpochs ++
    lit ", training_batch_size: " ++ digits c.trainingBatchSize ++ lit ", num_self_play_batches: " ++ digits c.numSelfPlayBatches ++ lit " }"

/-- `{:?}` of `MctsConfig`, lib.rs:31-40. -/
def mctsText (fl : Num → Name) (c : Config.MctsConfig Num) : Name :=
  lit "MctsConfig { iterations: " ++ digits c.iterations ++ lit ", c: " ++ fl c.c ++ lit ", simulate_round_limit: " ++
    digits c.simulateRoundLimit ++ lit ", dirichlet_alpha: " ++ fl c.dirichletAlpha ++ lit ", dirichlet_epsilon: " ++
    fl c.dirichletEpsilon ++ lit " }"

/-- The message about the model, alphazero.rs:86-100: `vs` has no variables yet. -/
def openModel {E : Env} (T : Trainer E) (w : Cli.Which) (fs : Fs) : Option Name → Res Name
  | some p =>
    match fs.text p with
    | some x => if T.readable x then .ok (line (lit "Successfully loaded model on path: " ++ p)) else .error .explicitPanic
    | none => .error .explicitPanic
  | none =>
    match fs.entry (modelPath w bestName) with
    | none => .ok (line (lit "No best model found, initialized from scratch"))
    | some (.file x) => if T.readable x then .ok (line (lit "Successfully loaded best model")) else .error .explicitPanic
    | some .dir => .error .explicitPanic

/-- The three parts of the configuration, alphazero.rs:114-127. -/
structure Settings where
  az : Config.AlphaZeroConfig Num
  mcts : Config.MctsConfig Num
  op : Config.OptimizerParams Num

/-- The reading of the configuration in `from_config`, alphazero.rs:114-127. -/
def settings (conf : Config.Conf Num) : Res Settings :=
  match Config.AlphaZeroConfig.fromConfig conf, Config.MctsConfig.fromConfig toSingle conf, Config.OptimizerParams.fromConfig conf with
  | some az, some mcts, some op => .ok { az, mcts, op }
  | _, _, _ => .error .explicitPanic

/-- `AlphaZero::from_config`, alphazero.rs:82-127: the settings and what is printed. -/
def fromConfig {E : Env} (T : Trainer E) (w : Cli.Which) (model : Option Name) (conf : Config.Conf Num) (fs : Fs) : Res (Settings × Name) := do
  let s ← settings conf
  let m ← openModel T w fs model
  pure (s, line (lit "Initializing AlphaZero...") ++ line (lit "Device: " ++ T.device) ++ line (azText T.float s.az) ++
    line (mctsText T.float s.mcts) ++ m)

/-- What a training run works with. -/
def setup {E : Env} (T : Trainer E) (s : Settings) : Setup (E.floats s.mcts) (E.W × T.O) where
  net w := E.net s.mcts w.1
  nan w := T.nan w.1
  step := T.step s.op
  play := { iterations := s.mcts.iterations, limit := s.mcts.simulateRoundLimit, pw := E.pw s.az.temperature }
  games := s.az.numSelfPlayBatches
  selfPlays := s.az.selfPlayIterations
  epochs := s.az.numEpochs
  learns := s.az.learnIterations
  batch := s.az.trainingBatchSize
  pf := E.pf
  rnd := rnd f64

/-! ## The learn command -/

/-- `vs.save(path)`: the files, and whether it succeeded. -/
def saveFs {E : Env} (T : Trainer E) (fs : Fs) (p : Name) (w : E.W) : Fs × Bool :=
  match fs.write p (T.store w) with
  | .ok fs' => (fs', true)
  | .error _ => (fs, false)

section Learn
variable {E : Env} (T : Trainer E) (w : Cli.Which) (s : Settings)

/-- `play_vs_best_model`, alpha_versus.rs:16-55. -/
def playBestFs (G : Game) (o : Orders) (f : Nat) (x : E.W × T.O) (fs : Fs) : M (Fs × Out) :=
  match fs.entry (modelPath w bestName) with
  | none =>
    let r := saveFs T fs (modelPath w bestName) x.1
    pure (r.1, { stdout := line (lit "No best model was found, saving current model as best...") ++
      (if r.2 then line (lit "model saved!") else line (lit "unable to save model, caught error: " ++ T.err)), bar := [] })
  | some _ => do
    let b ← M.lift (match (fs.text (modelPath w bestName)).bind (E.load w) with
      | some b => .ok b
      | none => .error .explicitPanic)
    let S := setup T s
    let r ← play (G := G) S.pf S.rnd { agent := .model, net := some (S.net x) } { agent := .model, net := some (E.net s.mcts b) } S.versus o f
    let loaded := line (lit "Successfully loaded model on path " ++ modelPath w bestName)
    let txt := loaded ++ (line [] ++ line (lit "Starting play!") ++ line (lit "Match result: " ++ r.text))
    if r.winrate ≥ S.rnd (55 / 100) then
      let q := saveFs T fs (modelPath w bestName) x.1
      pure (q.1, { stdout := txt, bar := [lit "new model was better!", if q.2 then lit "saved new best model" else lit "new model was better! couldn't save :("] })
    else if r.winrate ≤ S.rnd (45 / 100) then pure (fs, { stdout := txt, bar := [lit "current best model is still better!"] })
    else pure (fs, { stdout := txt, bar := [lit "new model vs current best was inconclusive, keeping current best!"] })

/-- A learn iteration, alpha_parallel.rs:41-98: the entries of its directory, the weights, the files, what is printed. -/
def learnStepFs {G : Game} (c : Chance G) (f i : Nat) (x : E.W × T.O) (fs : Fs) : M (List (Name × Tree) × (E.W × T.O) × Fs × Out) := do
  let r ← Train.selfPlays (setup T s) (c.play i) x (setup T s).selfPlays 0 []
  let e ← M.lift (Train.trainEpochs (setup T s) (c.shuffle i) (setup T s).epochs 0 r.2.2 x)
  M.lift (assert (!T.nan e.2.1))
  let q := saveFs T fs (modelPath w (modelName i)) e.2.1
  let saved := if q.2 then line (lit "Iteration " ++ digits i ++ lit " saved successfully, path: " ++ modelPath w (modelName i))
    else line (lit "Unable to save model: " ++ modelPath w (modelName i) ++ lit ", caught error: " ++ T.err)
  let b ← playBestFs T w s G (c.match' i) f e.2 q.1
  pure (r.2.1, e.2, b.1, Out.then ⟨saved, []⟩ b.2)

/-- The learn iterations: how many are left, index of the next one. -/
def learnLoopFs {G : Game} (c : Chance G) (f : Nat) : Nat → Nat → E.W × T.O → Fs → M (List (Name × Tree) × Fs × Out)
  | 0, _, _, fs => pure ([], fs, ⟨[], []⟩)
  | k + 1, i, x, fs => do
    let a ← learnStepFs T w s c f i x fs
    let l ← learnLoopFs c f k (i + 1) a.2.1 a.2.2.1
    pure ((Train.lrnName i, .dir a.1) :: l.1, l.2.1, a.2.2.2.then l.2.2)

end Learn

/-- The data directory with one more entry. -/
def World.addRun (wd : World) (w : Cli.Which) (fs : Fs) (e : Name × Tree) : World where
  fs := fs
  data v := if v = w then some ((wd.data w).getD [] ++ [e]) else wd.data v

/-- The learn command, main.rs:119-122, alpha_parallel.rs:17-99; `id` is the run id, `x` the new network. -/
def learnMain {G : Game} {E : Env} (T : Trainer E) (w : Cli.Which) (model : Option Name) (conf : Config.Conf Num) (wd : World) (c : Chance G)
    (f : Nat) (id : Name) (x : E.W × T.O) : M (Out × World) := do
  let a ← M.lift (fromConfig T w model conf wd.fs)
  let l ← learnLoopFs T w a.1 c f a.1.az.learnIterations 0 x wd.fs
  pure (Out.then ⟨a.2, []⟩ (Out.then ⟨line (lit "Staring up run with run_id: " ++ id), [lit "Starting learn parallel..."]⟩ l.2.2),
    wd.addRun w l.2.1 (Train.runName id, .dir l.1))

/-! ## The train command -/

/-- The path of the data as a text, main.rs:175-182. -/
def dataText (w : Cli.Which) (run lrn sp : Option Name) : Res Name := do
  let p ← Train.dataPath run lrn sp
  pure (join ['/'] ((lit "./data/" ++ gameName w) :: p))

/-- The train command, main.rs:166-207; `shuffle` is the shuffle of `train`. -/
def trainMain {E : Env} (T : Trainer E) (w : Cli.Which) (model out run lrn sp : Option Name) (conf : Config.Conf Num) (wd : World)
    (shuffle : List Mem → List Mem) (x : E.W × T.O) : Res (Name × World) := do
  let p ← dataText w run lrn sp
  let data ← (match wd.data w with
    | some es => Train.trainingData (.dir es) run lrn sp
    | none => .error .explicitPanic)
  let a ← fromConfig T w model conf wd.fs
  let y ← Train.train E.pf a.1.az.trainingBatchSize (T.step a.1.op) (shuffle data) x
  let target := out.getD (modelPath w trainedName)
  let q := saveFs T wd.fs target y.1
  if q.2 then
    pure (line (lit "Starting training process") ++ line (lit "Loading all data under " ++ p) ++
      line (lit "Total memory fragments: " ++ digits data.length) ++ a.2 ++
      line (lit "Trained model saved successfully, saved to " ++ target), { wd with fs := q.1 })
  else .error .explicitPanic

/-! ## One run after the other -/

/-- What is left open in a run: hash orders, ids, shuffles, bounds of loops, the new network. -/
structure Choices (E : Env) (T : Trainer E) where
  orders : Orders
  bound : Nat
  ids : Nat → Name
  bg : Chance (BG.game E.pf)
  ttt : Chance (TTT.game E.pf)
  id : Name
  shuffle : List Mem → List Mem
  fresh : E.W × T.O

/-- The program, on the files of its earlier runs. -/
def invoke {E : Env} (T : Trainer E) (argv : List Name) (wd : World) (c : Choices E T) : M (Option Out × World) :=
  match Cli.parseArgs argv with
  | none => pure (none, wd)
  | some a => do
    let conf ← M.lift (match (configText wd.fs (a.config.getD (lit "./config"))).bind E.toml with
      | some x => .ok x
      | none => .error .explicitPanic)
    let n ← M.lift (Cli.threads E.cpus a.nCpus)
    let head := line (lit "Number of CPU's to use " ++ digits n)
    match a.command with
    | .learn m => do
      let r ← (match a.game with
        | .backgammon => learnMain T .backgammon m conf wd c.bg c.bound c.id c.fresh
        | .ticTacToe => learnMain T .ticTacToe m conf wd c.ttt c.bound c.id c.fresh)
      pure (some (Out.then ⟨head, []⟩ r.1), r.2)
    | .train m out run lrn sp => do
      let r ← M.lift (trainMain T a.game m out run lrn sp conf wd c.shuffle c.fresh)
      pure (some ⟨head ++ r.1, []⟩, r.2)
    | _ => do
      let r ← dispatch E a conf wd.fs c.orders c.bound c.ids
      pure (some ⟨head ++ r.1, []⟩, { wd with fs := r.2 })

end DieE.App
