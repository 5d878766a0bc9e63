import Verif.Train.Loss
import Verif.Train.Learn
import Mathlib.Analysis.Real.Sqrt

/-!
# Model of a training step: running statistics and optimizer

The step on a batch in `train` of `src/alphazero/alphazero.rs:239-259` with the parts of `tch` it relies on: batch
normalisation in training mode moves the running statistics towards those of the batch, and `Adam`
(`alphazero.rs:102`) changes the other variables.  Numbers are real numbers, rounding is not modelled.  The gradient
computed by `backward` is an arbitrary function of the variables and the batch.

The optimizer is built for the store before the network has variables (`alphazero.rs:102-105`); `tch` adds variables which
are missing when a step is made, so all variables take part in all steps.
-/

namespace DieE.Train
open DieE.Mcts DieE.Net
open DieE.Props.N (realArith)

/-- New values for variables; names and their order stay. -/
def mapVars {F : Type} (f : Name → Tensor F → Tensor F) (vs : VarStore F) : VarStore F :=
  ⟨vs.named.map fun e => (e.1, f e.1 e.2)⟩

/-! ## Running statistics -/

/-- Variance of values, divided by one less than their number. -/
noncomputable def unbiased (l : List ℝ) : ℝ := (l.map fun x => (x - l.sum / l.length) ^ 2).sum / (l.length - 1)

/-- A running statistic moved towards the one of the batch, `momentum` of `nn::BatchNormConfig` is 0.1. -/
noncomputable def towards (old new : ℝ) : ℝ := 9 / 10 * old + 1 / 10 * new

/-- A normalisation in training mode: the result, and the store with the new running statistics. -/
noncomputable def trackNorm (eps : ℝ) (vs : VarStore ℝ) (l : Norm) (x : Tensor ℝ) : Res (Tensor ℝ × VarStore ℝ) := do
  let y ← (l.apply (realArith eps) vs true x : Res (Tensor ℝ))
  match x.shape with
  | [n, _, h, w] => pure (y, mapVars (fun name old =>
      if name = l.mean then
        ⟨old.shape, fun idx => towards (old.at' idx) ((channel x n h w (idx.getD 0 0)).sum / (n * h * w : Nat))⟩
      else if name = l.var then ⟨old.shape, fun idx => towards (old.at' idx) (unbiased (channel x n h w (idx.getD 0 0)))⟩
      else old) vs)
  | _ => .error .tensorError

/-- `ResBlock::forward_t` in training mode, nnet.rs:25-33. -/
noncomputable def trackBlock (eps : ℝ) (vs : VarStore ℝ) (r : ResBlock) (x : Tensor ℝ) : Res (Tensor ℝ × VarStore ℝ) := do
  let y ← (r.conv1.apply (realArith eps) vs x : Res (Tensor ℝ))
  let s ← trackNorm eps vs r.bn1 y
  let y ← (r.conv2.apply (realArith eps) s.2 (mapT (realArith eps).relu s.1) : Res (Tensor ℝ))
  let s ← trackNorm eps s.2 r.bn2 y
  let y ← (addT (realArith eps) s.1 x : Res (Tensor ℝ))
  pure (mapT (realArith eps).relu y, s.2)

/-- The residual blocks one after the other, nnet.rs:69-73 and 123. -/
noncomputable def trackBlocks (eps : ℝ) : List ResBlock → VarStore ℝ → Tensor ℝ → Res (Tensor ℝ × VarStore ℝ)
  | [], vs, x => .ok (x, vs)
  | r :: rs, vs, x => do
    let s ← trackBlock eps vs r x
    trackBlocks eps rs s.2 s.1

/-- `forward_train(xs, true)`, nnet.rs:137-148, with the changes of the running statistics. -/
noncomputable def trackTrain (eps : ℝ) (net : ResNet) (vs : VarStore ℝ) (x : Tensor ℝ) :
    Res ((Tensor ℝ × Tensor ℝ) × VarStore ℝ) := do
  let y ← (net.conv.apply (realArith eps) vs x : Res (Tensor ℝ))
  let s ← trackNorm eps vs net.bn y
  let s ← trackBlocks eps net.res s.2 (mapT (realArith eps).relu s.1)
  let y ← (net.pConv.apply (realArith eps) s.2 s.1 : Res (Tensor ℝ))
  let p ← trackNorm eps s.2 net.pBn y
  let y ← flatten1 (mapT (realArith eps).relu p.1)
  let policy ← (net.pLin.apply (realArith eps) p.2 y : Res (Tensor ℝ))
  let y ← (net.vConv.apply (realArith eps) p.2 s.1 : Res (Tensor ℝ))
  let v ← trackNorm eps p.2 net.vBn y
  let y ← flatten1 (mapT (realArith eps).relu v.1)
  let y ← (net.vLin.apply (realArith eps) v.2 y : Res (Tensor ℝ))
  pure ((policy, mapT (realArith eps).tanh y), v.2)

/-! ## The optimizer -/

/-- `struct OptimizerParams`, alphazero.rs:47-50. -/
structure OptimizerParams where
  /-- weight decay -/
  wd : ℝ
  /-- learning rate -/
  lr : ℝ

/-- `beta1` of `Adam::default()` -/
noncomputable def beta1 : ℝ := 9 / 10
/-- `beta2` of `Adam::default()` -/
noncomputable def beta2 : ℝ := 999 / 1000
/-- `eps` of `Adam::default()` -/
noncomputable def adamEps : ℝ := 1 / 10 ^ 8

/-- The first moment after a step with gradient `g`. -/
noncomputable def firstMoment (m g : ℝ) : ℝ := beta1 * m + (1 - beta1) * g

/-- The second moment after a step with gradient `g`. -/
noncomputable def secondMoment (v g : ℝ) : ℝ := beta2 * v + (1 - beta2) * (g * g)

/-- What the `t`-th step subtracts from an entry, given the moments after the step. -/
noncomputable def stride (lr : ℝ) (t : Nat) (m v : ℝ) : ℝ :=
  lr / (1 - beta1 ^ t) * (m / (Real.sqrt v / Real.sqrt (1 - beta2 ^ t) + adamEps))

/-- The gradient with weight decay. -/
noncomputable def decayed (op : OptimizerParams) (x g : ℝ) : ℝ := g + op.wd * x

/-- The variables of a network and the state of the optimizer (of `tch`: one count for each variable, all equal). -/
structure Weights where
  /-- the variables -/
  vs : VarStore ℝ
  /-- number of steps made -/
  count : Nat
  /-- `exp_avg` -/
  m : Name → List Nat → ℝ
  /-- `exp_avg_sq` -/
  v : Name → List Nat → ℝ

/-- A network with a new optimizer, alphazero.rs:102-107. -/
def Weights.new (vs : VarStore ℝ) : Weights := { vs := vs, count := 0, m := fun _ _ => 0, v := fun _ _ => 0 }

/-- The trainable variables: all but the running statistics. -/
def trainable (net : ResNet) : List Name :=
  [net.conv.w, net.conv.b, net.bn.w, net.bn.b] ++
  net.res.flatMap (fun r => [r.conv1.w, r.conv1.b, r.conv2.w, r.conv2.b, r.bn1.w, r.bn1.b, r.bn2.w, r.bn2.b]) ++
  [net.pConv.w, net.pConv.b, net.pBn.w, net.pBn.b, net.pLin.w, net.pLin.b,
    net.vConv.w, net.vConv.b, net.vBn.w, net.vBn.b, net.vLin.w, net.vLin.b]

/-- The entries of a tensor, 0 if there is no tensor. -/
noncomputable def entries (x : Option (Tensor ℝ)) (idx : List Nat) : ℝ :=
  match x with
  | some x => x.at' idx
  | none => 0

/-- `step` of the optimizer: `grad` are the gradients of the variables. -/
noncomputable def adamStep (op : OptimizerParams) (names : List Name) (grad : Name → List Nat → ℝ) (w : Weights) : Weights :=
  let g := fun n idx => decayed op (entries (w.vs.get n) idx) (grad n idx)
  let m := fun n idx => firstMoment (w.m n idx) (g n idx)
  let v := fun n idx => secondMoment (w.v n idx) (g n idx)
  { vs := mapVars (fun n x => if n ∈ names then ⟨x.shape, fun idx => x.at' idx - stride op.lr (w.count + 1) (m n idx) (v n idx)⟩
      else x) w.vs
    count := w.count + 1
    m := m
    v := v }

/-- The step on a batch, alphazero.rs:239-259. -/
noncomputable def trainStep (eps : ℝ) (op : OptimizerParams) (net : ResNet)
    (grad : VarStore ℝ → Tensor Int × Tensor Val × Tensor Int → Name → List Nat → ℝ) (w : Weights)
    (x : Tensor Int × Tensor Val × Tensor Int) : Res Weights := do
  let r ← trackTrain eps net w.vs (mapT (realArith eps).ofInt x.2.2)
  let _ ← crossEntropy r.1.1 (mapT (fun v : Val => ((v.getD 0 : Rat) : ℝ)) x.2.1)
  let _ ← mseLoss r.1.2 (mapT (fun o : Int => (o : ℝ)) x.1)
  assert (finite x.2.1)
  pure (adamStep op (trainable net) (grad w.vs x) { w with vs := r.2 })

end DieE.Train
