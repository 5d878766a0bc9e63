import Verif.Mcts.Alpha
import Verif.Train.Data

/-!
# Model of the network

`src/alphazero/nnet.rs` and the construction of `AlphaZero` (`src/alphazero/alphazero.rs:80-107`), with the part of
`tch` they rely on: the `VarStore` (names of variables, `save`, `load`) and the layers.  A layer holds the names of its
variables (in `tch` it shares their storage with the store, so that `load` changes the layers too).

Numbers are abstract (`Arith`): sums are taken in a fixed order, rounding is part of the operations.  The initial values
of the variables are arbitrary.  Gradients, devices and the update of the running statistics of batch normalisation in
training mode are not modelled.
-/

namespace DieE.Net
open DieE.Train (Name digits)

/-- The arithmetic of the network. -/
structure Arith where
  /-- numbers -/
  F : Type
  zero : F
  add : F → F → F
  mul : F → F → F
  div : F → F → F
  /-- entries of input tensors -/
  ofInt : Int → F
  relu : F → F
  tanh : F → F
  exp : F → F
  /-- batch normalisation of a value, given mean, variance, weight and bias -/
  norm : F → F → F → F → F → F
  /-- mean of a list of values -/
  mean : List F → F
  /-- variance of a list of values -/
  var : List F → F

/-- Sum of `f 0 .. f (n - 1)`. -/
def Arith.sum (A : Arith) (n : Nat) (f : Nat → A.F) : A.F := (List.range n).foldl (fun acc i => A.add acc (f i)) A.zero

/-! ## Variables -/

/-- `nn::VarStore`: the map `named_variables` (in the order of creation). -/
structure VarStore (F : Type) where
  /-- names and values -/
  named : List (Name × Tensor F)

/-- `VarStore::new`. -/
def VarStore.empty (F : Type) : VarStore F := ⟨[]⟩

variable {F : Type}

/-- The names in use. -/
def VarStore.names (vs : VarStore F) : List Name := vs.named.map Prod.fst

/-- Value of a variable. -/
def VarStore.get (vs : VarStore F) (n : Name) : Option (Tensor F) := vs.named.lookup n

/-- The name given to a new variable by `tch` (`Path::add`): a name in use gets the number of variables appended. -/
def VarStore.fresh (vs : VarStore F) (n : Name) : Name :=
  if n ∈ vs.names then n ++ ['_', '_'] ++ digits vs.named.length else n

/-- `insert` of a hash map. -/
def insertVar (l : List (Name × Tensor F)) (n : Name) (x : Tensor F) : List (Name × Tensor F) :=
  if n ∈ l.map Prod.fst then l.map fun e => if e.1 = n then (n, x) else e else l ++ [(n, x)]

/-- `Path::var`: a new variable with name `n` and the given shape; `init` are the (random) initial values of the k-th
variable. -/
def VarStore.var (init : Nat → List Nat → F) (vs : VarStore F) (n : Name) (shape : List Nat) : Name × VarStore F :=
  (vs.fresh n, ⟨insertVar vs.named (vs.fresh n) ⟨shape, init vs.named.length⟩⟩)

/-- Contents of a model file. -/
abbrev ModelFile (F : Type) := List (Name × Tensor F)

/-- `VarStore::save`; the order of the hash map does not matter, as the file is read by name. -/
def VarStore.save (vs : VarStore F) : ModelFile F := vs.named

/-- The shape `src` can be broadcast to `dst`, both reversed. -/
def broadcastable : List Nat → List Nat → Bool
  | [], _ => true
  | _ :: _, [] => false
  | s :: src, d :: dst => (s == d || s == 1) && broadcastable src dst

/-- `dst.copy_(&src)`: the shape stays. -/
def copyInto (dst src : Tensor F) : Res (Tensor F) :=
  if broadcastable src.shape.reverse dst.shape.reverse then
    .ok ⟨dst.shape, fun idx => src.at' (List.zipWith (fun s i => if s = 1 then 0 else i) src.shape
      (idx.drop (dst.shape.length - src.shape.length)))⟩
  else .error .tensorError

/-- The loop of `VarStore::load`: every variable of the store must be in the file. -/
def loadVars (file : ModelFile F) : List (Name × Tensor F) → Res (List (Name × Tensor F))
  | [] => .ok []
  | (n, x) :: l => do
    let y ← (match file.lookup n with
      | some src => copyInto x src
      | none => .error .explicitPanic : Res (Tensor F))
    let ys ← loadVars file l
    pure ((n, y) :: ys)

/-- `VarStore::load` of a readable file; all callers panic on an error. -/
def VarStore.load (vs : VarStore F) (file : ModelFile F) : Res (VarStore F) := do
  let l ← loadVars file vs.named
  pure ⟨l⟩

/-! ## Layers -/

/-- `nn::Conv2D` -/
structure Conv where
  /-- weights -/
  w : Name
  /-- bias -/
  b : Name
  deriving DecidableEq, Repr

/-- `nn::BatchNorm` -/
structure Norm where
  /-- running mean -/
  mean : Name
  /-- running variance -/
  var : Name
  /-- weight -/
  w : Name
  /-- bias -/
  b : Name
  deriving DecidableEq, Repr

/-- `nn::Linear` -/
structure Linear where
  /-- weights -/
  w : Name
  /-- bias -/
  b : Name
  deriving DecidableEq, Repr

/-- `"weight"` -/
def weight : Name := ['w', 'e', 'i', 'g', 'h', 't']
/-- `"bias"` -/
def bias : Name := ['b', 'i', 'a', 's']
/-- `"running_mean"` -/
def runningMean : Name := ['r', 'u', 'n', 'n', 'i', 'n', 'g', '_', 'm', 'e', 'a', 'n']
/-- `"running_var"` -/
def runningVar : Name := ['r', 'u', 'n', 'n', 'i', 'n', 'g', '_', 'v', 'a', 'r']

variable (init : Nat → List Nat → F)

/-- `nn::conv2d(root, inp, out, 3, _)`. -/
def Conv.new (vs : VarStore F) (inp out : Nat) : Conv × VarStore F :=
  let s1 := vs.var init bias [out]
  let s2 := s1.2.var init weight [out, inp, 3, 3]
  (⟨s2.1, s1.1⟩, s2.2)

/-- `nn::batch_norm2d(root, out, _)`. -/
def Norm.new (vs : VarStore F) (out : Nat) : Norm × VarStore F :=
  let s1 := vs.var init weight [out]
  let s2 := s1.2.var init bias [out]
  let s3 := s2.2.var init runningMean [out]
  let s4 := s3.2.var init runningVar [out]
  (⟨s3.1, s4.1, s1.1, s2.1⟩, s4.2)

/-- `nn::linear(root, inp, out, _)`. -/
def Linear.new (vs : VarStore F) (inp out : Nat) : Linear × VarStore F :=
  let s1 := vs.var init bias [out]
  let s2 := s1.2.var init weight [out, inp]
  (⟨s2.1, s1.1⟩, s2.2)

/-- `struct ResBlock`, nnet.rs:16-22. -/
structure ResBlock where
  /-- `conv1` -/
  conv1 : Conv
  /-- `conv2` -/
  conv2 : Conv
  /-- `bn1` -/
  bn1 : Norm
  /-- `bn2` -/
  bn2 : Norm
  deriving DecidableEq, Repr

/-- `ResBlock::new`, nnet.rs:36-45. -/
def ResBlock.new (vs : VarStore F) (filters : Nat) : ResBlock × VarStore F :=
  let s1 := Conv.new init vs filters filters
  let s2 := Conv.new init s1.2 filters filters
  let s3 := Norm.new init s2.2 filters
  let s4 := Norm.new init s3.2 filters
  (⟨s1.1, s2.1, s3.1, s4.1⟩, s4.2)

/-- The loop creating the residual blocks, nnet.rs:69-73. -/
def ResBlock.newAll (filters : Nat) : Nat → VarStore F → List ResBlock × VarStore F
  | 0, vs => ([], vs)
  | k + 1, vs =>
    let s1 := ResBlock.new init vs filters
    let s2 := ResBlock.newAll filters k s1.2
    (s1.1 :: s2.1, s2.2)

/-- The constants of a game used by the network, base.rs:17-24. -/
structure Sizes where
  /-- `ACTION_SPACE_SIZE` -/
  actions : Nat
  /-- `N_INPUT_CHANNELS` -/
  channels : Nat
  /-- `CONV_OUTPUT_SIZE` -/
  convOut : Nat
  /-- `N_FILTERS` -/
  filters : Nat
  /-- `N_RES_BLOCKS` -/
  blocks : Nat

/-- The constants of TicTacToe, tictactoe/mod.rs:20-24. -/
def tttSizes : Sizes := { actions := 9, channels := 3, convOut := 9, filters := 64, blocks := 4 }
/-- The constants of Backgammon, backgammon_logic.rs:74-78. -/
def bgSizes : Sizes := { actions := 1352, channels := 6, convOut := 24, filters := 256, blocks := 19 }

/-- `struct ResNet`, nnet.rs:47-54, without the store. -/
structure ResNet where
  /-- convolution of `init_block` -/
  conv : Conv
  /-- normalisation of `init_block` -/
  bn : Norm
  /-- `res_layer` -/
  res : List ResBlock
  /-- convolution of `policy_head` -/
  pConv : Conv
  /-- normalisation of `policy_head` -/
  pBn : Norm
  /-- linear layer of `policy_head` -/
  pLin : Linear
  /-- convolution of `value_head` -/
  vConv : Conv
  /-- normalisation of `value_head` -/
  vBn : Norm
  /-- linear layer of `value_head` -/
  vLin : Linear
  deriving DecidableEq, Repr

/-- `ResNet::new`, nnet.rs:57-107. -/
def ResNet.new (z : Sizes) (vs : VarStore F) : ResNet × VarStore F :=
  let s1 := Conv.new init vs z.channels z.filters
  let s2 := Norm.new init s1.2 z.filters
  let s3 := ResBlock.newAll init z.filters z.blocks s2.2
  let s4 := Conv.new init s3.2 z.filters 32
  let s5 := Norm.new init s4.2 32
  let s6 := Linear.new init s5.2 (32 * z.convOut) z.actions
  let s7 := Conv.new init s6.2 z.filters 3
  let s8 := Norm.new init s7.2 3
  let s9 := Linear.new init s8.2 (3 * z.convOut) 1
  (⟨s1.1, s2.1, s3.1, s4.1, s5.1, s6.1, s7.1, s8.1, s9.1⟩, s9.2)

/-- `ResNet::from_path`, nnet.rs:109-118. -/
def ResNet.fromPath (z : Sizes) (file : ModelFile F) : Res (ResNet × VarStore F) := do
  let s := ResNet.new init z (VarStore.empty F)
  let vs ← s.2.load file
  pure (s.1, vs)

/-- The network of `AlphaZero::new`, alphazero.rs:80-107: `path` is the file given by the user, `best` the stored best
model.  The file is loaded into the empty store, then the variables are created. -/
def alphaZeroNew (z : Sizes) (path best : Option (ModelFile F)) : Res (ResNet × VarStore F) := do
  let vs := VarStore.empty F
  let vs ← (match path with
    | some f => vs.load f
    | none => match best with
      | some f => vs.load f
      | none => pure vs : Res (VarStore F))
  pure (ResNet.new init z vs)

/-! ## Evaluation -/

variable (A : Arith)

/-- The value of a variable. -/
def value {F : Type} (vs : VarStore F) (n : Name) : Res (Tensor F) :=
  match vs.get n with
  | some x => .ok x
  | none => .error .unwrapNone

/-- Entry of an input with a border of `pad` zeros; `y` and `z` are positions in the extended input. -/
def padded (x : Tensor A.F) (pad h w n c y z : Nat) : A.F :=
  if pad ≤ y ∧ y < h + pad ∧ pad ≤ z ∧ z < w + pad then x.at' [n, c, y - pad, z - pad] else A.zero

/-- Convolution with stride 1. -/
def conv2d (pad : Nat) (w b x : Tensor A.F) : Res (Tensor A.F) :=
  match x.shape, w.shape, b.shape with
  | [n, c, h, wd], [o, i, kh, kw], [o'] =>
    if c = i ∧ o' = o ∧ kh ≤ h + 2 * pad ∧ kw ≤ wd + 2 * pad then
      .ok ⟨[n, o, h + 2 * pad - kh + 1, wd + 2 * pad - kw + 1], fun idx =>
        A.add (A.sum c fun ci => A.sum kh fun u => A.sum kw fun v =>
          A.mul (w.at' [idx.getD 1 0, ci, u, v])
            (padded A x pad h wd (idx.getD 0 0) ci (idx.getD 2 0 + u) (idx.getD 3 0 + v)))
          (b.at' [idx.getD 1 0])⟩
    else .error .tensorError
  | _, _, _ => .error .tensorError

/-- All values of a channel. -/
def channel {F : Type} (x : Tensor F) (n h w c : Nat) : List F :=
  (List.range n).flatMap fun i => (List.range h).flatMap fun y => (List.range w).map fun z => x.at' [i, c, y, z]

/-- Batch normalisation; in training mode with the statistics of the batch (at least two values per channel). -/
def batchNorm (train : Bool) (m v w b x : Tensor A.F) : Res (Tensor A.F) :=
  match x.shape with
  | [n, c, h, wd] =>
    if m.shape = [c] ∧ v.shape = [c] ∧ w.shape = [c] ∧ b.shape = [c] ∧ (train = true → 2 ≤ n * h * wd) then
      .ok ⟨x.shape, fun idx =>
        let k := idx.getD 1 0
        let mean := if train then A.mean (channel x n h wd k) else m.at' [k]
        let var := if train then A.var (channel x n h wd k) else v.at' [k]
        A.norm (x.at' idx) mean var (w.at' [k]) (b.at' [k])⟩
    else .error .tensorError
  | _ => .error .tensorError

/-- A function applied to every entry. -/
def mapT {F F' : Type} (f : F → F') (x : Tensor F) : Tensor F' := ⟨x.shape, fun idx => f (x.at' idx)⟩

/-- `flatten(1, -1)`. -/
def flatten1 {F : Type} (x : Tensor F) : Res (Tensor F) :=
  match x.shape with
  | n :: s :: sh => .ok ⟨[n, Tensor.numel (s :: sh)], fun idx => x.at' (idx.getD 0 0 :: Tensor.unflat (s :: sh) (idx.getD 1 0))⟩
  | _ => .error .tensorError

/-- Linear layer. -/
def linear (w b x : Tensor A.F) : Res (Tensor A.F) :=
  match x.shape, w.shape, b.shape with
  | [n, i], [o, i'], [o'] =>
    if i = i' ∧ o' = o then
      .ok ⟨[n, o], fun idx =>
        A.add (A.sum i fun k => A.mul (x.at' [idx.getD 0 0, k]) (w.at' [idx.getD 1 0, k])) (b.at' [idx.getD 1 0])⟩
    else .error .tensorError
  | _, _, _ => .error .tensorError

/-- `softmax(1)` of a matrix. -/
def softmax {A : Arith} (x : Tensor A.F) : Res (Tensor A.F) :=
  match x.shape with
  | [n, m] => .ok ⟨[n, m], fun idx =>
      A.div (A.exp (x.at' idx)) (A.sum m fun k => A.exp (x.at' [idx.getD 0 0, k]))⟩
  | _ => .error .tensorError

/-- `add` of tensors of the same shape. -/
def addT (x y : Tensor A.F) : Res (Tensor A.F) :=
  if x.shape = y.shape then .ok ⟨x.shape, fun idx => A.add (x.at' idx) (y.at' idx)⟩ else .error .tensorError

/-- A convolution of the network: padding 1. -/
def Conv.apply (vs : VarStore A.F) (c : Conv) (x : Tensor A.F) : Res (Tensor A.F) := do
  let w ← value vs c.w
  let b ← value vs c.b
  conv2d A 1 w b x

/-- A normalisation of the network. -/
def Norm.apply (vs : VarStore A.F) (train : Bool) (l : Norm) (x : Tensor A.F) : Res (Tensor A.F) := do
  let m ← value vs l.mean
  let v ← value vs l.var
  let w ← value vs l.w
  let b ← value vs l.b
  batchNorm A train m v w b x

/-- A linear layer of the network. -/
def Linear.apply (vs : VarStore A.F) (l : Linear) (x : Tensor A.F) : Res (Tensor A.F) := do
  let w ← value vs l.w
  let b ← value vs l.b
  linear A w b x

/-- `ResBlock::forward_t`, nnet.rs:25-33. -/
def ResBlock.apply (vs : VarStore A.F) (train : Bool) (r : ResBlock) (x : Tensor A.F) : Res (Tensor A.F) := do
  let y ← r.conv1.apply A vs x
  let y ← r.bn1.apply A vs train y
  let y := mapT A.relu y
  let y ← r.conv2.apply A vs y
  let y ← r.bn2.apply A vs train y
  let y ← addT A y x
  pure (mapT A.relu y)

/-- `init_block` and `res_layer`, nnet.rs:64-73 and 121-123. -/
def ResNet.trunk (vs : VarStore A.F) (train : Bool) (net : ResNet) (x : Tensor A.F) : Res (Tensor A.F) := do
  let y ← net.conv.apply A vs x
  let y ← net.bn.apply A vs train y
  let y := mapT A.relu y
  net.res.foldlM (fun y r => r.apply A vs train y) y

/-- `policy_head`, nnet.rs:75-85. -/
def ResNet.policyHead (vs : VarStore A.F) (train : Bool) (net : ResNet) (x : Tensor A.F) : Res (Tensor A.F) := do
  let y ← net.pConv.apply A vs x
  let y ← net.pBn.apply A vs train y
  let y := mapT A.relu y
  let y ← flatten1 y
  net.pLin.apply A vs y

/-- `value_head`, nnet.rs:87-98. -/
def ResNet.valueHead (vs : VarStore A.F) (train : Bool) (net : ResNet) (x : Tensor A.F) : Res (Tensor A.F) := do
  let y ← net.vConv.apply A vs x
  let y ← net.vBn.apply A vs train y
  let y := mapT A.relu y
  let y ← flatten1 y
  let y ← net.vLin.apply A vs y
  pure (mapT A.tanh y)

/-- `forward_t`, nnet.rs:120-133. -/
def ResNet.forward (vs : VarStore A.F) (train : Bool) (net : ResNet) (x : Tensor A.F) : Res (Tensor A.F × Tensor A.F) := do
  let y ← net.trunk A vs train x
  let p ← net.policyHead A vs train y
  let p ← softmax p
  let v ← net.valueHead A vs train y
  pure (p, v)

/-- `forward_train`, nnet.rs:137-148. -/
def ResNet.forwardTrain (vs : VarStore A.F) (train : Bool) (net : ResNet) (x : Tensor A.F) :
    Res (Tensor A.F × Tensor A.F) := do
  let y ← net.trunk A vs train x
  let p ← net.policyHead A vs train y
  let v ← net.valueHead A vs train y
  pure (p, v)

/-- `forward_policy`, nnet.rs:150-155. -/
def ResNet.forwardPolicy (vs : VarStore A.F) (train : Bool) (net : ResNet) (x : Tensor A.F) : Res (Tensor A.F) := do
  let y ← net.trunk A vs train x
  let p ← net.policyHead A vs train y
  softmax p

end DieE.Net
