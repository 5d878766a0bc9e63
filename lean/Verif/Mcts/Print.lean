import Verif.Mcts.Model
import Verif.Text.Pretty

/-!
# Model of the printed trees: `NodeStore::pretty_print` and `Display` of `ActionNode`

The output is modelled as the text written if the function returns; what is written before a panic is not.
-/

namespace DieE.Mcts
open DieE.Text
open DieE.Train (Name digits)
variable {G : Game} {Fl : Floats}

/-- The formats used: `{:?}` of `Option<Move>`, and `{:.2}`, `{:.3}`, `{:.5}` of an `f32`. -/
structure Formats (G : Game) (Fl : Floats) where
  /-- `{:?}` of the action -/
  action : Option G.Mv → Name
  /-- `{:.2}` -/
  two : Fl.F → Name
  /-- `{:.3}` -/
  three : Fl.F → Name
  /-- `{:.5}` -/
  five : Fl.F → Name

/-- `{:.2}` of an `f32` holding a natural number. -/
def twoNat (n : Nat) : Name := digits n ++ lit ".00"

/-- The line of a node, node_store.rs:79-90. -/
def treeLine (fm : Formats G Fl) (current index : Nat) (n : Node G Fl) (ucb : Fl.F) : Name :=
  List.replicate (2 * current) ' ' ++ lit "[" ++ digits index ++ lit "] Action: " ++ fm.action n.action ++ lit " \t\tVisits: " ++
    twoNat n.visits ++ lit " \tValue: " ++ fm.two n.value ++ lit " \tUCB: " ++ fm.five ucb ++ lit " \tWin_Pct: " ++
    fm.three n.winPct

/-- `_pretty_print`, node_store.rs:71-95; the first argument is the number of levels that may still be printed,
`depth + 1 - current_depth`. -/
def prettyFrom (fm : Formats G Fl) (st : Store G Fl) : Nat → Nat → Nat → Res Name
  | 0, _, _ => .ok []
  | f + 1, current, index => do
    let n ← getNode st index
    let ucb ← n.ucb st
    let rest ← n.children.mapM (prettyFrom fm st f (current + 1))
    pure (treeLine fm current index n ucb ++ ['\n'] ++ rest.flatten)

/-- `pretty_print`, node_store.rs:67-69. -/
def prettyPrint (fm : Formats G Fl) (st : Store G Fl) (index depth : Nat) : Res Name := prettyFrom fm st (depth + 1) 0 index

/-- `Display` of `NodeStore`, node_store.rs:13-17. -/
def displayStore (st : Store G Fl) : Name := lit "NodeStore<size=" ++ digits st.length ++ lit ">"

end DieE.Mcts

namespace DieE.BG
open DieE.Text
open DieE.Train (Name digits)

/-- `{:?}` of a pair of `i8`. -/
def debugAct (a : Act) : Name := lit "(" ++ writeInt a.1 ++ lit ", " ++ writeInt a.2 ++ lit ")"

mutual
/-- `format_tree`, backgammon_logic.rs:36-52. -/
def formatTree (pre : Name) (last : Bool) : ActionNode → Name
  | .node value children =>
    pre ++ (if last then lit "└── " else lit "├── ") ++ debugAct value ++ ['\n'] ++
      formatTrees (pre ++ if last then lit "    " else lit "│   ") children
/-- The loop over the children. -/
def formatTrees (pre : Name) : List ActionNode → Name
  | [] => []
  | c :: cs => formatTree pre cs.isEmpty c ++ formatTrees pre cs
end

/-- `Display` of `ActionNode`, backgammon_logic.rs:21-26. -/
def displayTree (n : ActionNode) : Name := formatTree [] true n

/-- `{:?}` of the action of a node: `Option<Vec<(i8, i8)>>`. -/
def debugMove : Option (List Act) → Name
  | none => lit "None"
  | some l => lit "Some([" ++ join (lit ", ") (l.map debugAct) ++ lit "])"

end DieE.BG

namespace DieE.TTT
open DieE.Text
open DieE.Train (Name digits)

/-- `{:?}` of the action of a node: `Option<usize>`. -/
def debugMove : Option Nat → Name
  | none => lit "None"
  | some n => lit "Some(" ++ digits n ++ lit ")"

end DieE.TTT
