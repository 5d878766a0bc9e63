import Verif.Versus.Model
import Verif.Text.Json

/-!
# Model of saved games

`save_game`, `load_game`, `load_all_games` and `print_game` of `src/versus.rs:54-120` with the derived implementations of
`Serialize` and `Deserialize` of the structures involved.  The derived `Deserialize` also accepts a structure written as
an array; that form is never written and left out.  A directory is a list of names with their contents; writing into it
does not fail.
-/

namespace DieE.Versus
open DieE.Train (Name)
open DieE.Text

/-! ## `Serialize` and `Deserialize` -/

/-- The two derived functions of a type. -/
structure Serde (α : Type) where
  /-- `Serialize::serialize` -/
  ser : α → Json
  /-- `Deserialize::deserialize` -/
  de : Json → Option α

/-- Integers of a machine type with the given bounds. -/
def intSerde (lo hi : Int) : Serde Int where
  ser := .num
  de
    | .num n => if lo ≤ n ∧ n ≤ hi then some n else none
    | _ => none

/-- `i8` -/
def i8Serde : Serde Int := intSerde (-128) 127
/-- `u8` -/
def u8Serde : Serde Int := intSerde 0 255

/-- `usize` on a 64-bit machine. -/
def usizeSerde : Serde Nat where
  ser n := .num n
  de
    | .num n => if 0 ≤ n ∧ n < 18446744073709551616 then some n.toNat else none
    | _ => none

/-- `bool` -/
def boolSerde : Serde Bool where
  ser := .bool
  de
    | .bool b => some b
    | _ => none

/-- `String` -/
def strSerde : Serde Name where
  ser := .str
  de
    | .str s => some s
    | _ => none

/-- `(A, B)` -/
def pairSerde {α β : Type} (a : Serde α) (b : Serde β) : Serde (α × β) where
  ser p := .arr [a.ser p.1, b.ser p.2]
  de
    | .arr [x, y] => do
      let u ← a.de x
      let v ← b.de y
      some (u, v)
    | _ => none

/-- `Vec<A>` -/
def vecSerde {α : Type} (a : Serde α) : Serde (List α) where
  ser l := .arr (l.map a.ser)
  de
    | .arr l => l.mapM a.de
    | _ => none

/-- `[A; n]` -/
def arraySerde {α : Type} (a : Serde α) (n : Nat) : Serde (Vector α n) where
  ser v := .arr (v.toList.map a.ser)
  de
    | .arr l => do
      let l ← l.mapM a.de
      if h : l.length = n then some ⟨l.toArray, by simpa using h⟩ else none
    | _ => none

/-- `Option<A>` -/
def optSerde {α : Type} (a : Serde α) : Serde (Option α) where
  ser
    | some x => a.ser x
    | none => .null
  de
    | .null => some none
    | j => (a.de j).map some

/-- The value of the field `k` of a structure: an error if it is missing or given twice; other fields are ignored. -/
def field (k : Name) (l : List (Name × Json)) : Option Json :=
  match l.filter (fun e => e.1 == k) with
  | [e] => some e.2
  | _ => none

/-- The value of a field of type `Option<A>`: if it is missing, `None`. -/
def optField (k : Name) (l : List (Name × Json)) : Option Json :=
  match l.filter (fun e => e.1 == k) with
  | [] => some .null
  | [e] => some e.2
  | _ => none

/-! ## The structures

A structure is read from an object, or from an array with the values of all its fields in the order of their declaration. -/

/-- `Board`, backgammon_logic.rs:10: `([i8; 24], (u8, u8), (u8, u8))`. -/
def boardSerde : Serde BG.Board where
  ser b := .arr [(arraySerde i8Serde 24).ser b.pts, (pairSerde u8Serde u8Serde).ser b.hit, (pairSerde u8Serde u8Serde).ser b.col]
  de
    | .arr [x, y, z] => do
      let p ← (arraySerde i8Serde 24).de x
      let h ← (pairSerde u8Serde u8Serde).de y
      let c ← (pairSerde u8Serde u8Serde).de z
      some { pts := p, hit := h, col := c }
    | _ => none

/-- `"board"` -/
def kBoard : Name := ['b', 'o', 'a', 'r', 'd']
/-- `"roll"` -/
def kRoll : Name := ['r', 'o', 'l', 'l']
/-- `"player"` -/
def kPlayer : Name := ['p', 'l', 'a', 'y', 'e', 'r']
/-- `"is_second_play"` -/
def kSecond : Name := ['i', 's', '_', 's', 'e', 'c', 'o', 'n', 'd', '_', 'p', 'l', 'a', 'y']
/-- `"id"` -/
def kId : Name := ['i', 'd']
/-- `"action"` -/
def kAction : Name := ['a', 'c', 't', 'i', 'o', 'n']
/-- `"player1"` -/
def kPlayer1 : Name := ['p', 'l', 'a', 'y', 'e', 'r', '1']
/-- `"player2"` -/
def kPlayer2 : Name := ['p', 'l', 'a', 'y', 'e', 'r', '2']
/-- `"turns"` -/
def kTurns : Name := ['t', 'u', 'r', 'n', 's']
/-- `"winner"` -/
def kWinner : Name := ['w', 'i', 'n', 'n', 'e', 'r']
/-- `"initial_state"` -/
def kInitial : Name := ['i', 'n', 'i', 't', 'i', 'a', 'l', '_', 's', 't', 'a', 't', 'e']

/-- `struct Backgammon`, backgammon_logic.rs:53-60. -/
def bgSerde : Serde BG.State where
  ser g := .obj [(kBoard, boardSerde.ser g.board), (kRoll, (pairSerde u8Serde u8Serde).ser g.roll),
    (kPlayer, i8Serde.ser g.player), (kSecond, boolSerde.ser g.second), (kId, usizeSerde.ser g.id)]
  de
    | .obj l => do
      let b ← field kBoard l
      let b ← boardSerde.de b
      let r ← field kRoll l
      let r ← (pairSerde u8Serde u8Serde).de r
      let p ← field kPlayer l
      let p ← i8Serde.de p
      let s ← field kSecond l
      let s ← boolSerde.de s
      let i ← field kId l
      let i ← usizeSerde.de i
      some { board := b, roll := r, player := p, second := s, id := i }
    | .arr [b, r, p, s, i] => do
      let b ← boardSerde.de b
      let r ← (pairSerde u8Serde u8Serde).de r
      let p ← i8Serde.de p
      let s ← boolSerde.de s
      let i ← usizeSerde.de i
      some { board := b, roll := r, player := p, second := s, id := i }
    | _ => none

/-- `struct TicTacToe`, tictactoe/mod.rs:5-13. -/
def tttSerde : Serde TTT.State where
  ser g := .obj [(kPlayer, i8Serde.ser g.player), (kBoard, (arraySerde i8Serde 9).ser g.board), (kId, usizeSerde.ser g.id)]
  de
    | .obj l => do
      let p ← field kPlayer l
      let p ← i8Serde.de p
      let b ← field kBoard l
      let b ← (arraySerde i8Serde 9).de b
      let i ← field kId l
      let i ← usizeSerde.de i
      some { player := p, board := b, id := i }
    | .arr [p, b, i] => do
      let p ← i8Serde.de p
      let b ← (arraySerde i8Serde 9).de b
      let i ← usizeSerde.de i
      some { player := p, board := b, id := i }
    | _ => none

/-- The name of a variant of `Agent`, versus.rs:17-20. -/
def Agent.name : Agent → Name
  | .random => ['R', 'a', 'n', 'd', 'o', 'm']
  | .mcts => ['M', 'c', 't', 's']
  | .model => ['M', 'o', 'd', 'e', 'l']
  | .none => ['N', 'o', 'n', 'e']

/-- `enum Agent`, versus.rs:17-20: a variant without data is written as its name; it is also read from an object
with this name as the only key and the value `null`. -/
def agentSerde : Serde Agent where
  ser a := .str a.name
  de
    | .str s => [Agent.random, .mcts, .model, .none].find? fun a => a.name == s
    | .obj [(s, .null)] => [Agent.random, .mcts, .model, .none].find? fun a => a.name == s
    | _ => none

/-- `struct Turn<T>`, versus.rs:22-26. -/
structure SavedTurn (S : Type) where
  /-- `roll` -/
  roll : Option (Int × Int)
  /-- `action` -/
  action : List S
  /-- `player` -/
  player : Agent

/-- `struct Game<T>`, versus.rs:28-36, with its real `id`. -/
structure SavedGame (S : Type) where
  /-- `id` -/
  id : Name
  /-- `player1` -/
  player1 : Agent
  /-- `player2` -/
  player2 : Agent
  /-- `turns` -/
  turns : List (SavedTurn S)
  /-- `winner` -/
  winner : Agent
  /-- `initial_state` -/
  initial : S

/-- The derived functions of `Turn<T>`. -/
def turnSerde {S : Type} (s : Serde S) : Serde (SavedTurn S) where
  ser t := .obj [(kRoll, (optSerde (pairSerde u8Serde u8Serde)).ser t.roll), (kAction, (vecSerde s).ser t.action),
    (kPlayer, agentSerde.ser t.player)]
  de
    | .obj l => do
      let r ← optField kRoll l
      let r ← (optSerde (pairSerde u8Serde u8Serde)).de r
      let a ← field kAction l
      let a ← (vecSerde s).de a
      let p ← field kPlayer l
      let p ← agentSerde.de p
      some { roll := r, action := a, player := p }
    | .arr [r, a, p] => do
      let r ← (optSerde (pairSerde u8Serde u8Serde)).de r
      let a ← (vecSerde s).de a
      let p ← agentSerde.de p
      some { roll := r, action := a, player := p }
    | _ => none

/-- The derived functions of `Game<T>`. -/
def gameSerde {S : Type} (s : Serde S) : Serde (SavedGame S) where
  ser g := .obj [(kId, strSerde.ser g.id), (kPlayer1, agentSerde.ser g.player1), (kPlayer2, agentSerde.ser g.player2),
    (kTurns, (vecSerde (turnSerde s)).ser g.turns), (kWinner, agentSerde.ser g.winner), (kInitial, s.ser g.initial)]
  de
    | .obj l => do
      let i ← field kId l
      let i ← strSerde.de i
      let p ← field kPlayer1 l
      let p ← agentSerde.de p
      let q ← field kPlayer2 l
      let q ← agentSerde.de q
      let t ← field kTurns l
      let t ← (vecSerde (turnSerde s)).de t
      let w ← field kWinner l
      let w ← agentSerde.de w
      let n ← field kInitial l
      let n ← s.de n
      some { id := i, player1 := p, player2 := q, turns := t, winner := w, initial := n }
    | .arr [i, p, q, t, w, n] => do
      let i ← strSerde.de i
      let p ← agentSerde.de p
      let q ← agentSerde.de q
      let t ← (vecSerde (turnSerde s)).de t
      let w ← agentSerde.de w
      let n ← s.de n
      some { id := i, player1 := p, player2 := q, turns := t, winner := w, initial := n }
    | _ => none

/-! ## Files -/

/-- An entry of a directory. -/
inductive Entry where
  | file (text : Name)
  | dir
  deriving DecidableEq

/-- A directory. -/
abbrev Dir := List (Name × Entry)

/-- `".json"` -/
def jsonExt : Name := ['.', 'j', 's', 'o', 'n']

/-- `File::create` and `write_all`: an older file of the same name is replaced. -/
def writeFile (name text : Name) (d : Dir) : Dir := d.filter (fun e => e.1 != name) ++ [(name, .file text)]

/-- `save_game`, versus.rs:54-63. -/
def saveGame {S : Type} (s : Serde S) (g : SavedGame S) (d : Dir) : Dir :=
  writeFile (g.id ++ jsonExt) (text ((gameSerde s).ser g)) d

/-- The loop of the play command over the games, main.rs:161-163. -/
def saveGames {S : Type} (s : Serde S) : List (SavedGame S) → Dir → Dir
  | [], d => d
  | g :: gs, d => saveGames s gs (saveGame s g d)

/-- `load_game`, versus.rs:65-73, on the text of the file. -/
def loadText {S : Type} (s : Serde S) (t : Name) : Option (SavedGame S) := do
  let j ← parse t
  (gameSerde s).de j

/-- `load_all_games`, versus.rs:106-120; the entries in the order in which `read_dir` yields them. -/
def loadAllGames {S : Type} (s : Serde S) : Dir → Option (List (SavedGame S))
  | [] => some []
  | (_, .dir) :: es => loadAllGames s es
  | (n, .file t) :: es => do
    if jsonExt.isSuffixOf n then
      let g ← loadText s t
      let gs ← loadAllGames s es
      some (g :: gs)
    else loadAllGames s es

/-- `print_game`, versus.rs:75-104: the states that are printed, `print_game` itself prints them with `to_pretty_str`;
first the initial state, then one state for each turn. -/
def printedStates {S : Type} (g : SavedGame S) : List S :=
  let current := g.initial
  current :: g.turns.map fun _ => current

/-- `Game<T>` as returned by `play`: `ids` are the random ids of the games. -/
def Rec.saved {G : Game} (ids : Nat → Name) (r : Rec G) : SavedGame G.S where
  id := ids r.key
  player1 := r.player1
  player2 := r.player2
  turns := r.turns.map fun t => { roll := t.roll, action := t.action, player := t.player }
  winner := r.winner
  initial := r.initial

/-! ## The play command -/

/-- The type of an agent on the command line, main.rs:125-143; `to_ascii_lowercase` is `Char.toLower` for every
character. -/
def parseAgent (a : Option Name) : Res Agent :=
  match a with
  | none => .error .explicitPanic
  | some a =>
    let a := a.map Char.toLower
    if a = ['m', 'o', 'd', 'e', 'l'] then .ok .model
    else if a = ['m', 'c', 't', 's'] then .ok .mcts
    else if a = ['r', 'a', 'n', 'd', 'o', 'm'] then .ok .random
    else .error .explicitPanic

/-- The play command, main.rs:124-165: the directory of the output after the command.  `out` is the output path, with
`some none` for a path that is not a directory; `net1` and `net2` are the networks loaded from the given paths; `ids`
are the random ids of the games.  The configuration is loaded successfully. -/
def playCommand {G : Game} {Fl : Mcts.Floats} (pf : Profile) (rnd : Rat → Rat) (sd : Serde G.S) (one two : Option Name)
    (net1 net2 : Option (Mcts.Net Fl)) (out : Option (Option Dir)) (cfg : Config) (o : Orders) (f : Nat) (ids : Nat → Name) :
    M Dir := do
  let a1 ← M.lift (parseAgent one)
  let a2 ← M.lift (parseAgent two)
  let out ← M.lift (match out with
    | none => .error .explicitPanic
    | some d => .ok d)
  let d ← M.lift (match out with
    | none => .error .assertFailed
    | some d => .ok d)
  let r ← play (G := G) pf rnd { agent := a1, net := net1 } { agent := a2, net := net2 } cfg o f
  pure (saveGames sd (r.games.map (Rec.saved ids)) d)

end DieE.Versus
