import Verif.Cli.Model
import Verif.Config
import Verif.Versus.Report
import Verif.Fp.Num
import Verif.Text.PrettySpec

/-!
# The program: `main`

`main` and `handle_command` of `src/main.rs:86-221` with the files they read and write and the text they print.  The
commands play and replay are modelled down to the bytes of files and output; learn and train are parameters here (their
models are in `Train/Learn`), as are the parser of TOML, the format of network files and the number of CPUs.

Simplified: a path is its list of components (`..` is a name like others, there are no links); reading never fails for an
existing file, writing fails only if the path is a directory or its parent is not one; text is a sequence of characters;
the progress bars (on stderr) are left out; waiting for Enter is left out.
-/

namespace DieE.App
open DieE.Train (Name digits)
open DieE.Text DieE.Versus DieE.Fp

/-! ## Files -/

/-- A path, `Path::components`: absolute or not, the names in it (`.` and repeated separators are dropped). -/
structure Path where
  abs : Bool
  parts : List Name
  deriving DecidableEq

/-- The path of a text; the empty text is no path. -/
def path (p : Name) : Option Path :=
  if p = [] then none
  else some { abs := p.head? == some '/', parts := (split '/' p).filter fun c => c != [] && c != ['.'] }

/-- What the file system holds. -/
abbrev Fs := Path → Option Entry

/-- The entry at a path. -/
def Fs.entry (fs : Fs) (p : Name) : Option Entry := (path p).bind fs

/-- `is_dir` -/
def Fs.isDir (fs : Fs) (p : Name) : Bool := fs.entry p == some .dir

/-- The text of the file at a path. -/
def Fs.text (fs : Fs) (p : Name) : Option Name :=
  match fs.entry p with
  | some (.file t) => some t
  | _ => none

/-- `File::create(p)?` and `write_all`, then `unwrap`. -/
def Fs.write (fs : Fs) (p txt : Name) : Res Fs :=
  match path p with
  | none => .error .unwrapNone
  | some q =>
    if q.parts = [] ∨ fs q = some .dir ∨ fs { q with parts := q.parts.dropLast } ≠ some .dir then .error .unwrapNone
    else .ok fun r => if r = q then some (.file txt) else fs r

/-- `Path::join` -/
def joinPath (p q : Name) : Name :=
  if q.head? = some '/' ∨ p = [] then q
  else if p.getLast? = some '/' then p ++ q
  else p ++ '/' :: q

/-! ## Printing -/

/-- `Debug` of a tuple or list. -/
def debugSeq (l r : Name) (xs : List Name) : Name := l ++ join (lit ", ") xs ++ r

/-- `Debug` of `(u8, u8)`. -/
def debugPair (p : Int × Int) : Name := debugSeq ['('] [')'] [writeInt p.1, writeInt p.2]

/-- `Debug` of `Option<(u8, u8)>`. -/
def debugRoll : Option (Int × Int) → Name
  | none => lit "None"
  | some p => lit "Some(" ++ debugPair p ++ lit ")"

/-- `Debug` of `bool`. -/
def debugBool (b : Bool) : Name := if b then lit "true" else lit "false"

/-- What is needed of a game: `Serialize`, `Deserialize`, `Debug`, `to_pretty_str`. -/
structure Printer (G : Game) where
  serde : Serde G.S
  debug : G.S → Name
  pretty : G.S → Res Name

/-- `Debug` of `Backgammon`, backgammon_logic.rs:53-60. -/
def debugBG (g : BG.State) : Name :=
  lit "Backgammon { board: (" ++ debugSeq ['['] [']'] (g.board.pts.toList.map writeInt) ++ lit ", " ++ debugPair g.board.hit ++
    lit ", " ++ debugPair g.board.col ++ lit "), roll: " ++ debugPair g.roll ++ lit ", player: " ++ writeInt g.player ++
    lit ", is_second_play: " ++ debugBool g.second ++ lit ", id: " ++ digits g.id ++ lit " }"

/-- `Debug` of `TicTacToe`, tictactoe/mod.rs:5-13. -/
def debugTTT (g : TTT.State) : Name :=
  lit "TicTacToe { player: " ++ writeInt g.player ++ lit ", board: " ++ debugSeq ['['] [']'] (g.board.toList.map writeInt) ++
    lit ", id: " ++ digits g.id ++ lit " }"

/-- Backgammon. -/
def bgPrinter (pf : Profile) : Printer (BG.game pf) where
  serde := bgSerde
  debug := debugBG
  pretty := BG.toPrettyStr pf

/-- TicTacToe. -/
def tttPrinter (pf : Profile) : Printer (TTT.game pf) where
  serde := tttSerde
  debug := debugTTT
  pretty := fun g => .ok (TTT.toPrettyStr g)

/-- One turn in `print_game`, versus.rs:88-101, with `wait_user_input`. -/
def turnText {G : Game} (K : Printer G) (current : Name) (t : SavedTurn G.S) : Name :=
  line (lit "Player: " ++ t.player.name) ++ line (lit "Roll: " ++ debugRoll t.roll) ++
  line (lit "Action: " ++ debugSeq ['['] [']'] (t.action.map K.debug)) ++ line (lit "State after action has been played:") ++
  line current ++ line (lit "Press Enter to continue...")

/-- `print_game`, versus.rs:75-104, on a loaded game. -/
def gameText {G : Game} (K : Printer G) (g : SavedGame G.S) : Res Name := do
  let current ← K.pretty g.initial
  pure (line (lit "Game ID: " ++ g.id) ++
    line (lit "Player 1: " ++ g.player1.name ++ lit ", Player 2: " ++ g.player2.name) ++
    line (lit "Game winner: " ++ g.winner.name) ++ line (lit "Initial State:") ++ line current ++
    (g.turns.map (turnText K current)).flatten)

/-! ## The commands -/

/-- What the program runs in. -/
structure Env where
  /-- the build profile -/
  pf : Profile
  /-- `num_cpus::get()` -/
  cpus : Nat
  /-- the TOML parser of the `config` crate -/
  toml : Name → Option (Config.Conf Num)
  /-- weights of a network -/
  W : Type
  /-- `ResNet::from_path`: the weights in a file, for the game with this name -/
  load : Cli.Which → Name → Option W
  /-- the arithmetic of the searches -/
  floats : Config.MctsConfig Num → Mcts.Floats
  /-- the network with these weights -/
  net : (cfg : Config.MctsConfig Num) → W → Mcts.Net (floats cfg)
  /-- `x ↦ x^(1 / temperature)` -/
  pw : Num → Rat → Rat
  /-- the learn command -/
  learn : Cli.Which → Option Name → Config.Conf Num → Fs → M (Name × Fs)
  /-- the train command -/
  train : Cli.Which → Cli.Command → Config.Conf Num → Fs → M (Name × Fs)

/-- `x as f32` -/
def toSingle : Num → Num
  | .fin q => .round f32 q
  | x => x

/-- `model_path.map(|p| ResNet::from_path(&p))`, main.rs:150-154. -/
def loadModel (E : Env) (w : Cli.Which) (fs : Fs) : Option Name → Res (Option E.W)
  | none => .ok none
  | some p =>
    match (fs.text p).bind (E.load w) with
    | some x => .ok (some x)
    | none => .error .unwrapNone

/-- The message of `ResNet::from_path`, nnet.rs:114. -/
def loadedText : Option Name → Name
  | none => []
  | some p => line (lit "Successfully loaded model on path " ++ p)

/-- The loop over the games with `save_game(..).unwrap()`, main.rs:161-163, versus.rs:54-63. -/
def saveAll {G : Game} (K : Printer G) (out : Name) : List (SavedGame G.S) → Fs → Res Fs
  | [], fs => .ok fs
  | g :: gs, fs => do
    let fs ← fs.write (joinPath out (g.id ++ jsonExt)) (text ((gameSerde K.serde).ser g))
    saveAll K out gs fs

/-- The play command, main.rs:124-165. -/
def playMain {G : Game} (E : Env) (w : Cli.Which) (K : Printer G) (one model1 two model2 out : Option Name)
    (conf : Config.Conf Num) (fs : Fs) (o : Orders) (f : Nat) (ids : Nat → Name) : M (Name × Fs) := do
  let a1 ← M.lift (parseAgent one)
  let a2 ← M.lift (parseAgent two)
  let out ← M.lift (match out with
    | some p => .ok p
    | none => .error .explicitPanic)
  M.lift (if fs.isDir out then .ok () else .error .assertFailed)
  let w1 ← M.lift (loadModel E w fs model1)
  let w2 ← M.lift (loadModel E w fs model2)
  let temp ← M.lift (match conf.float "temperature" with
    | some x => .ok x
    | none => .error .explicitPanic)
  let cfg ← M.lift (match Config.MctsConfig.fromConfig toSingle conf with
    | some c => .ok c
    | none => .error .unwrapNone)
  let r ← play (G := G) E.pf (rnd f64) { agent := a1, net := w1.map (E.net cfg) } { agent := a2, net := w2.map (E.net cfg) }
    { iterations := cfg.iterations, limit := cfg.simulateRoundLimit, pw := E.pw temp } o f
  let fs ← M.lift (saveAll K out (r.games.map (Rec.saved ids)) fs)
  pure (loadedText model1 ++ (loadedText model2 ++ (line [] ++ line (lit "Starting play!") ++
    line (r.text ++ line [] ++ lit " Saving games..."))), fs)

/-- The replay command, main.rs:208-213. -/
def replayMain {G : Game} (K : Printer G) (p : Name) (fs : Fs) : Res Name :=
  match (fs.text p).bind (loadText K.serde) with
  | none => .error .explicitPanic
  | some g => gameText K g

/-- `handle_command`, main.rs:117-216. -/
def handle {G : Game} (E : Env) (w : Cli.Which) (K : Printer G) (c : Cli.Command) (conf : Config.Conf Num) (fs : Fs)
    (o : Orders) (f : Nat) (ids : Nat → Name) : M (Name × Fs) :=
  match c with
  | .learn m => E.learn w m conf fs
  | .play one m1 two m2 out => playMain E w K one m1 two m2 out conf fs o f ids
  | .train .. => E.train w c conf fs
  | .replay p => do
    let s ← M.lift (replayMain K p fs)
    pure (s, fs)

/-- The text of the configuration file: the given path, or the path with `.toml` appended (`config::File`). -/
def configText (fs : Fs) (p : Name) : Option Name :=
  match fs.text p with
  | some t => some t
  | none => fs.text (p ++ lit ".toml")

/-- How the program ends. -/
inductive Outcome where
  /-- with a message of the parser of the command line -/
  | usage
  /-- normally: what was printed, and the files afterwards -/
  | done (stdout : Name) (fs : Fs)

/-- `match args.game`, main.rs:113-116. -/
def dispatch (E : Env) (a : Cli.Args) (conf : Config.Conf Num) (fs : Fs) (o : Orders) (f : Nat) (ids : Nat → Name) : M (Name × Fs) :=
  match a.game with
  | .backgammon => handle E .backgammon (bgPrinter E.pf) a.command conf fs o f ids
  | .ticTacToe => handle E .ticTacToe (tttPrinter E.pf) a.command conf fs o f ids

/-- `main`, main.rs:85-117. -/
def main (E : Env) (argv : List Name) (fs : Fs) (o : Orders) (f : Nat) (ids : Nat → Name) : M Outcome :=
  match Cli.parseArgs argv with
  | none => pure .usage
  | some a => do
    let conf ← M.lift (match (configText fs (a.config.getD (lit "./config"))).bind E.toml with
      | some c => .ok c
      | none => .error .explicitPanic)
    let n ← M.lift (Cli.threads E.cpus a.nCpus)
    let head := line (lit "Number of CPU's to use " ++ digits n)
    let r ← dispatch E a conf fs o f ids
    pure (.done (head ++ r.1) r.2)

end DieE.App
