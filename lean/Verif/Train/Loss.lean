import Verif.Train.Data
import Verif.Props.NetReal
import Mathlib.Analysis.SpecialFunctions.Log.Basic

/-!
# Model of the loss of a training batch

The loss computed in `train` of `src/alphazero/alphazero.rs` from the output of `forward_train`, over the real numbers
(rounding is not modelled; the finiteness assertions can then only fail for probabilities which are not numbers).  The
gradient and the step of the optimizer are not modelled.
-/

namespace DieE.Train
open DieE.Mcts DieE.Net
open DieE.Props.N (realArith)

/-- The sum of `f` over the numbers below `n`. -/
def total (n : Nat) (f : Nat → ℝ) : ℝ := ((List.range n).map f).sum

/-- `log_softmax` of a row `x` of width `m`. -/
noncomputable def logSoftmax (m : Nat) (x : Nat → ℝ) (c : Nat) : ℝ := x c - Real.log (total m fun k => Real.exp (x k))

/-- `cross_entropy_loss` with probabilities as target (target of the shape of the input), no weights, reduction `Mean`,
label smoothing 0, alphazero.rs:241-247.  Reduction `Mean` divides by the number of rows. -/
noncomputable def crossEntropy (x p : Tensor ℝ) : Res ℝ :=
  match x.shape with
  | [n, m] => if p.shape = [n, m] then
      .ok ((total n fun i => total m fun c => -(p.at' [i, c] * logSoftmax m (fun k => x.at' [i, k]) c)) / n)
    else .error .tensorError
  | _ => .error .tensorError

/-- `mse_loss` with reduction `Mean`, alphazero.rs:248, for columns; other shapes, which the library broadcasts, are
treated as an error. -/
noncomputable def mseLoss (v o : Tensor ℝ) : Res ℝ :=
  match v.shape with
  | [n, 1] => if o.shape = [n, 1] then .ok ((total n fun i => (v.at' [i, 0] - o.at' [i, 0]) ^ 2) / n)
    else .error .tensorError
  | _ => .error .tensorError

/-- All entries of a matrix are numbers. -/
def finite (p : Tensor Val) : Bool :=
  match p.shape with
  | [n, m] => (List.range n).all fun i => (List.range m).all fun c => (p.at' [i, c]).isSome
  | _ => false

/-- The loss of a batch, alphazero.rs:239-255: `x` are the tensors of the batch (outcomes, probabilities, states).  A
target which is not a number makes the loss NaN and the assertion of line 252 fails. -/
noncomputable def batchLoss (eps : ℝ) (net : ResNet) (vs : VarStore ℝ) (x : Tensor Int × Tensor Val × Tensor Int) : Res ℝ := do
  let out ← net.forwardTrain (realArith eps) vs true (mapT (realArith eps).ofInt x.2.2)
  let policy ← crossEntropy out.1 (mapT (fun v : Val => ((v.getD 0 : Rat) : ℝ)) x.2.1)
  let outcome ← mseLoss out.2 (mapT (fun o : Int => (o : ℝ)) x.1)
  assert (finite x.2.1)
  pure (policy + outcome)

end DieE.Train
