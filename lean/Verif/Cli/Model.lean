import Verif.Train.Data

/-!
# Model of the command line

The arguments declared in `src/main.rs` with the part of `clap` (version 4, derived parser, default settings) they rely
on: options with one value, written `--name value`, `--name=value`, `-n value`, `-nvalue` or `-n=value`; the long name is
the field name with `-` for `_`, the short one its first letter; an option may be given once; a separate value must not
look like an option; the first other word is the command; `--` is accepted at the very end only, as there are no positional
arguments that could follow it.  Arguments are lists of characters.  `none` stands for any exit
of the parser with a message (errors and the help text), no panic and no command is run.
-/

namespace DieE.Cli
open DieE.Train (Name)

/-- The type of a value. -/
inductive Kind where
  /-- `String` -/
  | text
  /-- `PathBuf` -/
  | path
  /-- `usize` -/
  | usize
  /-- `LearnableGames` -/
  | game
  deriving DecidableEq

/-- An option. -/
structure Opt where
  /-- long name -/
  long : Name
  /-- short name -/
  short : Option Char
  /-- type of the value -/
  kind : Kind
  deriving DecidableEq

/-- What a word on the command line is: an option with its number and the value attached to it, a plain word, or
something that is refused (an unknown option; `--`, but see `dropEscape`). -/
inductive Token where
  | opt (i : Nat) (value : Option Name)
  | word
  | bad

/-- How `clap` looks at a word. -/
def classify (opts : List Opt) (t : Name) : Token :=
  match t with
  | '-' :: '-' :: r =>
    match opts.findIdx? (fun o => o.long == r.takeWhile (· != '=')) with
    | some i => .opt i (match r.dropWhile (· != '=') with
      | [] => none
      | _ :: v => some v)
    | none => .bad
  | '-' :: c :: r =>
    match opts.findIdx? (fun o => o.short == some c) with
    | some i => .opt i (match r with
      | [] => none
      | '=' :: v => some v
      | v => some v)
    | none => .bad
  | _ => .word

/-- A word that looks like an option. -/
def isFlag : Name → Bool
  | '-' :: _ :: _ => true
  | _ => false

/-- The options of a level (main program or command), up to the first plain word: their numbers and values in order,
and the remaining words. -/
def parseOpts (opts : List Opt) : List Name → List (Nat × Name) → Option (List (Nat × Name) × List Name)
  | [], acc => some (acc, [])
  | t :: ts, acc =>
    match classify opts t with
    | .word => some (acc, t :: ts)
    | .bad => none
    | .opt i (some v) => if i ∈ acc.map Prod.fst then none else parseOpts opts ts (acc ++ [(i, v)])
    | .opt i none =>
      match ts with
      | [] => none
      | v :: ts => if isFlag v then none else if i ∈ acc.map Prod.fst then none else parseOpts opts ts (acc ++ [(i, v)])

/-- `usize::from_str`: a plus sign is allowed. -/
def parseUsize (v : Name) : Option Nat :=
  let ds := match v with
    | '+' :: ds => ds
    | ds => ds
  if ds ≠ [] ∧ ds.all Char.isDigit then
    if Nat.ofDigitChars 10 ds 0 < 2 ^ 64 then some (Nat.ofDigitChars 10 ds 0) else none
  else none

/-- `enum LearnableGames`, main.rs:81-84. -/
inductive Which where
  | ticTacToe
  | backgammon
  deriving DecidableEq

/-- The names of its values. -/
def parseGame (v : Name) : Option Which :=
  if v = "tic-tac-toe".toList then some .ticTacToe
  else if v = "backgammon".toList then some .backgammon
  else none

/-- The parser of a value accepts it; a path must not be empty. -/
def valueOk : Kind → Name → Bool
  | .text, _ => true
  | .path, v => !v.isEmpty
  | .usize, v => (parseUsize v).isSome
  | .game, v => (parseGame v).isSome

/-- All values of a level are accepted. -/
def valuesOk (opts : List Opt) (l : List (Nat × Name)) : Bool :=
  l.all fun e => match opts[e.1]? with
    | some o => valueOk o.kind e.2
    | none => false

/-- `struct Args`, main.rs:15-30. -/
def mainOpts : List Opt :=
  [⟨"config".toList, some 'c', .path⟩, ⟨"game".toList, some 'g', .game⟩, ⟨"n-cpus".toList, some 'n', .usize⟩]

/-- `Commands::Learn`, main.rs:35-39. -/
def learnOpts : List Opt := [⟨"model-path".toList, some 'm', .path⟩]

/-- `Commands::Play`, main.rs:40-56. -/
def playOpts : List Opt :=
  [⟨"agent-one".toList, some 'a', .text⟩, ⟨"model-path-one".toList, some 'm', .path⟩, ⟨"agent-two".toList, none, .text⟩,
    ⟨"model-path-two".toList, none, .path⟩, ⟨"output-path".toList, some 'o', .path⟩]

/-- `Commands::Train`, main.rs:57-73. -/
def trainOpts : List Opt :=
  [⟨"model-path".toList, some 'm', .path⟩, ⟨"out-path".toList, some 'o', .path⟩, ⟨"run-id".toList, some 'r', .text⟩,
    ⟨"learn".toList, some 'l', .text⟩, ⟨"self-play".toList, some 's', .text⟩]

/-- `Commands::Replay`, main.rs:74-78. -/
def replayOpts : List Opt := [⟨"game-path".toList, some 'g', .path⟩]

/-- `enum Commands`, main.rs:32-79. -/
inductive Command where
  | learn (model : Option Name)
  | play (one model1 two model2 out : Option Name)
  | train (model out run learn selfPlay : Option Name)
  | replay (game : Name)
  deriving DecidableEq

/-- `struct Args`, main.rs:15-30. -/
structure Args where
  config : Option Name
  game : Which
  nCpus : Option Nat
  command : Command
  deriving DecidableEq

/-- The options of a command; nothing else may follow. -/
def parseLevel (opts : List Opt) (ts : List Name) : Option (List (Nat × Name)) :=
  match parseOpts opts ts [] with
  | some (l, []) => if valuesOk opts l then some l else none
  | _ => none

/-- A command with its options. -/
def parseCommand (c : Name) (ts : List Name) : Option Command :=
  if c = "learn".toList then do
    let l ← parseLevel learnOpts ts
    some (.learn (l.lookup 0))
  else if c = "play".toList then do
    let l ← parseLevel playOpts ts
    some (.play (l.lookup 0) (l.lookup 1) (l.lookup 2) (l.lookup 3) (l.lookup 4))
  else if c = "train".toList then do
    let l ← parseLevel trainOpts ts
    some (.train (l.lookup 0) (l.lookup 1) (l.lookup 2) (l.lookup 3) (l.lookup 4))
  else if c = "replay".toList then do
    let l ← parseLevel replayOpts ts
    let p ← l.lookup 0
    some (.replay p)
  else none

/-- `--` ends the options of a command.  What follows would be positional arguments, and no command has any. -/
def dropEscape (ts : List Name) : List Name := if ts.getLast? = some "--".toList then ts.dropLast else ts

/-- `Args::parse()`, main.rs:87; the arguments without the name of the program. -/
def parseArgs (argv : List Name) : Option Args :=
  match parseOpts mainOpts argv [] with
  | some (l, c :: ts) => if valuesOk mainOpts l then do
      let command ← parseCommand c (dropEscape ts)
      let game ← (l.lookup 1).bind parseGame
      some { config := l.lookup 0, game, nCpus := (l.lookup 2).bind parseUsize, command }
    else none
  | _ => none

/-! ## The number of threads -/

/-- The number of threads asked for, main.rs:101-107; `cpus` is `num_cpus::get()`. -/
def threads (cpus : Nat) (n : Option Nat) : Res Nat :=
  match n with
  | some n => if n > cpus then .error .explicitPanic else .ok n
  | none => .ok (cpus / 2)

/-- The number of threads of the pool, main.rs:108-111: `num_threads(0)` means one for each CPU (`RAYON_NUM_THREADS` is
not set). -/
def poolSize (cpus n : Nat) : Nat := if n = 0 then cpus else n

/-- The number of threads of the program. -/
def workers (cpus : Nat) (n : Option Nat) : Res Nat := do
  let k ← threads cpus n
  pure (poolSize cpus k)

end DieE.Cli
