import Verif.Cli.Model

/-!
# How a command line is written

Independent of the parser: the words in which an option and its value can be written, in any order, and which value
belongs to which field.
-/

namespace DieE.Cli
open DieE.Train (Name)

/-- A word that can stand alone, as a value or as a command. -/
def Plain (v : Name) : Prop := v.head? ≠ some '-' ∨ v = ['-']

/-- The ways to write the option `o` with value `v`. -/
inductive Written (o : Opt) (v : Name) : List Name → Prop
  /-- `--name value` -/
  | longSep : Plain v → Written o v ["--".toList ++ o.long, v]
  /-- `--name=value` -/
  | longEq : Written o v ["--".toList ++ o.long ++ "=".toList ++ v]
  /-- `-n value` -/
  | shortSep (c : Char) : o.short = some c → Plain v → Written o v [['-', c], v]
  /-- `-n=value` -/
  | shortEq (c : Char) : o.short = some c → Written o v [['-', c, '='] ++ v]
  /-- `-nvalue` -/
  | shortJoin (c : Char) : o.short = some c → v ≠ [] → v.head? ≠ some '=' → Written o v [['-', c] ++ v]

/-- Several options, one after the other. -/
inductive WrittenAll : List (Opt × Name) → List Name → Prop
  | nil : WrittenAll [] []
  | cons {o : Opt} {v : Name} {w : List Name} {l : List (Opt × Name)} {ws : List Name} : Written o v w → WrittenAll l ws →
    WrittenAll ((o, v) :: l) (w ++ ws)

/-- The options that have a value. -/
def given (fs : List (Opt × Option Name)) : List (Opt × Name) := fs.filterMap fun e => e.2.map fun v => (e.1, v)

/-- The words give the fields `fs` their values, in some order, and nothing else. -/
def Says (fs : List (Opt × Option Name)) (ws : List Name) : Prop := ∃ l, l.Perm (given fs) ∧ WrittenAll l ws

/-- `v` is a decimal number, perhaps with a plus sign. -/
def Number (v : Name) (n : Nat) : Prop :=
  ∃ ds, (v = ds ∨ v = '+' :: ds) ∧ ds ≠ [] ∧ (∀ c ∈ ds, c.isDigit = true) ∧ n = Nat.ofDigitChars 10 ds 0 ∧ n < 2 ^ 64

/-- The names of the games. -/
inductive GameName : Name → Which → Prop
  | ticTacToe : GameName "tic-tac-toe".toList .ticTacToe
  | backgammon : GameName "backgammon".toList .backgammon

/-- The value is one of the given type. -/
def Fits : Kind → Name → Prop
  | .text, _ => True
  | .path, v => v ≠ []
  | .usize, v => ∃ n, Number v n
  | .game, v => ∃ g, GameName v g

/-- The name of a command and its fields. -/
def Command.fields : Command → String × List (Opt × Option Name)
  | .learn m => ("learn", [(⟨"model-path".toList, some 'm', .path⟩, m)])
  | .play a1 m1 a2 m2 out => ("play", [(⟨"agent-one".toList, some 'a', .text⟩, a1), (⟨"model-path-one".toList, some 'm', .path⟩, m1),
      (⟨"agent-two".toList, none, .text⟩, a2), (⟨"model-path-two".toList, none, .path⟩, m2),
      (⟨"output-path".toList, some 'o', .path⟩, out)])
  | .train m out run lrn sp => ("train", [(⟨"model-path".toList, some 'm', .path⟩, m), (⟨"out-path".toList, some 'o', .path⟩, out),
      (⟨"run-id".toList, some 'r', .text⟩, run), (⟨"learn".toList, some 'l', .text⟩, lrn),
      (⟨"self-play".toList, some 's', .text⟩, sp)])
  | .replay g => ("replay", [(⟨"game-path".toList, some 'g', .path⟩, some g)])

/-- The command line `argv` says `a`; it may end with `--`. -/
def Means (argv : List Name) (a : Args) : Prop :=
  ∃ (pre post last : List Name) (game : Name) (cpus : Option Name),
    argv = pre ++ a.command.fields.1.toList :: (post ++ last) ∧ (last = [] ∨ last = ["--".toList]) ∧
    Says [(⟨"config".toList, some 'c', .path⟩, a.config), (⟨"game".toList, some 'g', .game⟩, some game),
      (⟨"n-cpus".toList, some 'n', .usize⟩, cpus)] pre ∧
    a.config ≠ some [] ∧ GameName game a.game ∧ (match cpus with
      | none => a.nCpus = none
      | some v => ∃ n, Number v n ∧ a.nCpus = some n) ∧
    Says a.command.fields.2 post ∧ ∀ e ∈ given a.command.fields.2, Fits e.1.kind e.2

end DieE.Cli
