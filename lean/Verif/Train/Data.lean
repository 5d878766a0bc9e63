import Verif.Train.SelfPlay

/-!
# Model of training data: batches, files and directories

`save_training_data`, `load_training_data` and `train` of `src/alphazero/alphazero.rs`, the directories written by
`learn_parallel` of `src/alphazero/alpha_parallel.rs`, and the selection of data by the train command of `src/main.rs`.
Input/output errors, devices and element types are not modelled; a tensor file holds the tensor that was saved.  The
network and the optimizer are an arbitrary function of the tensors of a batch.
-/

namespace DieE.Train
open DieE.Mcts

/-- `struct MemoryFragment`, alphazero.rs:68-73, with the probabilities as a tensor. -/
structure Mem where
  /-- `outcome` -/
  outcome : Int
  /-- `ps` -/
  ps : Tensor Val
  /-- `state` -/
  state : Tensor Int

/-- A fragment of self-play as it is kept in memory: `ps` is a row of the tensor of probabilities, of shape `[N]`
(`prob_tensor.get(processed_idx)`, alpha_parallel.rs:169). -/
def Frag.mem (N : Nat) (f : Frag) : Mem := { outcome := f.outcome, ps := ⟨[N], fun idx => f.ps (idx.headD 0)⟩, state := f.state }

/-! ## Batches -/

/-- `a + b` of `usize`. -/
def usizeAdd (pf : Profile) (a b : Nat) : Res Nat :=
  if a + b < 2 ^ 64 then .ok (a + b)
  else match pf with
    | .debug => .error .overflow
    | .release => .ok ((a + b) % 2 ^ 64)

/-- The values of `(i..n).step_by(b)`; the first argument bounds their number. -/
def steps (b n : Nat) : Nat → Nat → List Nat
  | 0, _ => []
  | f + 1, i => if i < n then i :: steps b n f (i + b) else []

/-- `&l[a..b]`. -/
def slice {α : Type} (l : List α) (a b : Nat) : Res (List α) :=
  if a ≤ b ∧ b ≤ l.length then .ok ((l.take b).drop a) else .error .indexOutOfBounds

/-- The samples of `train`, alphazero.rs:205-206; `step_by(0)` panics. -/
def batches {α : Type} (pf : Profile) (b : Nat) (memory : List α) : Res (List (List α)) := do
  assert (b ≠ 0)
  (steps b memory.length memory.length 0).mapM fun i => do
    let e ← usizeAdd pf i b
    slice memory i (min e memory.length)

/-- The tensors of a sample, alphazero.rs:207-237: outcomes, probabilities, states. -/
def batchTensors (sample : List Mem) : Res (Tensor Int × Tensor Val × Tensor Int) := do
  let o := Tensor.fromSlice (sample.map Mem.outcome)
  -- `unsqueeze(1)` of a vector
  let o : Tensor Int := ⟨o.shape ++ [1], fun idx => o.at' (idx.take 1)⟩
  let p ← Tensor.stack (sample.map Mem.ps) 0
  let s ← Tensor.stack (sample.map Mem.state) 0
  let s ← s.squeezeDim1
  pure (o, p, s)

/-- `train`, alphazero.rs:202-261: `memory` is the list after shuffling, `step` the forward pass, the losses with their
assertions and the step of the optimizer, on the weights `W`. -/
def train {W : Type} (pf : Profile) (b : Nat) (step : W → Tensor Int × Tensor Val × Tensor Int → Res W) (memory : List Mem)
    (w : W) : Res W := do
  let bs ← batches pf b memory
  bs.foldlM (fun w sample => do
    let x ← batchTensors sample
    step w x) w

/-! ## Files -/

/-- A file or directory name. -/
abbrev Name := List Char

/-- Content of a file. -/
inductive Content where
  /-- a tensor of floats -/
  | floats (t : Tensor Val)
  /-- a tensor of integers -/
  | ints (t : Tensor Int)

/-- A file or a directory with its entries, in the order of `read_dir`. -/
inductive Tree where
  /-- a file -/
  | file (c : Content)
  /-- a directory -/
  | dir (es : List (Name × Tree))

/-- The file or directory with the given path. -/
def Tree.lookup : List Name → Tree → Option Tree
  | [], t => some t
  | _ :: _, .file _ => none
  | n :: p, .dir es => match es.find? (fun e => e.1 = n) with
    | some e => Tree.lookup p e.2
    | none => none

/-- `"ps.ot"` -/
def psName : Name := ['p', 's', '.', 'o', 't']
/-- `"states.ot"` -/
def statesName : Name := ['s', 't', 'a', 't', 'e', 's', '.', 'o', 't']
/-- `"outcomes.ot"` -/
def outcomesName : Name := ['o', 'u', 't', 'c', 'o', 'm', 'e', 's', '.', 'o', 't']

/-- `save_training_data`, alphazero.rs:149-176: the directory after saving, which was empty before. -/
def saveTrainingData (data : List Mem) : Res Tree := do
  let ps ← Tensor.stack (data.map Mem.ps) 0
  let states ← Tensor.cat (data.map Mem.state)
  let outcomes := Tensor.fromSlice (data.map Mem.outcome)
  pure (.dir [(psName, .file (.floats ps)), (statesName, .file (.ints states)), (outcomesName, .file (.ints outcomes))])

/-- `Tensor::load(path).unwrap()` of a tensor of floats. -/
def loadFloats (t : Option Tree) : Res (Tensor Val) :=
  match t with
  | some (.file (.floats x)) => .ok x
  | _ => .error .unwrapNone

/-- `Tensor::load(path).unwrap()` of a tensor of integers. -/
def loadInts (t : Option Tree) : Res (Tensor Int) :=
  match t with
  | some (.file (.ints x)) => .ok x
  | _ => .error .unwrapNone

/-- `load_training_data`, alphazero.rs:184-200, on the directory with path `p`. -/
def loadTrainingData (root : Tree) (p : List Name) : Res (List Mem) := do
  assert (root.lookup p).isSome
  let ps ← loadFloats (root.lookup (p ++ [psName]))
  let states ← loadInts (root.lookup (p ++ [statesName]))
  let outcomes ← loadInts (root.lookup (p ++ [outcomesName]))
  let ps := ps.squeeze
  let states := states.squeeze
  let outcomes := outcomes.squeeze
  let size ← index ps.shape 0
  (List.range size).mapM fun i => do
    let o ← outcomes.get i
    let v ← o.value []
    let q ← ps.get i
    let s ← states.get i
    pure { outcome := v, ps := q.squeeze, state := s }

/-! ## Directories -/

/-- Decimal digits of a number, as written by `format!`. -/
def digits (n : Nat) : Name := Nat.toDigits 10 n

/-- `sp-{i}` -/
def spName (i : Nat) : Name := ['s', 'p', '-'] ++ digits i
/-- `lrn-{i}` -/
def lrnName (i : Nat) : Name := ['l', 'r', 'n', '-'] ++ digits i
/-- `run-{id}` -/
def runName (id : Name) : Name := ['r', 'u', 'n', '-'] ++ id

/-- `contains("sp")` -/
def containsSp (n : Name) : Bool := decide (['s', 'p'] <:+: n)

/-- The self-play iterations of a learn iteration, alpha_parallel.rs:48-68: `res` are the results of
`self_play_parallel` still to come, `i` their index, `memory` the fragments so far.  The entries of the learn
directory. -/
def selfPlayDirs : Nat → List Mem → List (List Mem) → Res (List (Name × Tree))
  | _, _, [] => .ok []
  | i, memory, r :: res => do
    let memory := memory ++ r
    let d ← saveTrainingData memory
    let ds ← selfPlayDirs (i + 1) memory res
    pure ((spName i, d) :: ds)

/-- The learn iterations of a run, alpha_parallel.rs:41-68, from index `i`: the entries of the run directory. -/
def learnDirs : Nat → List (List (List Mem)) → Res (List (Name × Tree))
  | _, [] => .ok []
  | i, l :: ls => do
    let d ← selfPlayDirs 0 [] l
    let ds ← learnDirs (i + 1) ls
    pure ((lrnName i, .dir d) :: ds)

/-- The data directory `./data/{name}` after several runs of `learn_parallel` (alpha_parallel.rs:18-21) with different
run ids. -/
def runDirs : List (Name × List (List (List Mem))) → Res (List (Name × Tree))
  | [] => .ok []
  | (id, ls) :: runs => do
    let d ← learnDirs 0 ls
    let ds ← runDirs runs
    pure ((runName id, .dir d) :: ds)

mutual

/-- `get_all_paths_rec`, main.rs:218-231: the paths found below `t`, which has path `p`. -/
def allPaths : List Name → Tree → List (List Name)
  | _, .file _ => []
  | p, .dir es => allPathsIn p es

/-- The loop over the entries of a directory, main.rs:220-228. -/
def allPathsIn : List Name → List (Name × Tree) → List (List Name)
  | _, [] => []
  | p, (n, t) :: es => (if containsSp n then [p ++ [n]] else allPaths (p ++ [n]) t) ++ allPathsIn p es

end

/-- The path of the data, main.rs:176-182, relative to `./data/{name}`. -/
def dataPath (run lrn sp : Option Name) : Res (List Name) :=
  match run, lrn, sp with
  | none, none, none => .ok []
  | some id, none, none => .ok [runName id]
  | some id, some l, none => .ok [runName id, ['l', 'r', 'n', '-'] ++ l]
  | some id, some l, some s => .ok [runName id, ['l', 'r', 'n', '-'] ++ l, ['s', 'p', '-'] ++ s]
  | _, _, _ => .error .explicitPanic

/-- The data of the train command, main.rs:175-192; `root` is the directory `./data/{name}`. -/
def trainingData (root : Tree) (run lrn sp : Option Name) : Res (List Mem) := do
  let p ← dataPath run lrn sp
  match root.lookup p with
  | none => .error .explicitPanic
  | some t => do
    let l ← (allPaths p t).mapM (loadTrainingData root)
    pure l.flatten

end DieE.Train
