import Verif.Fp.Num

/-!
# Visit shares, priors and noise in single precision

The tensor functions of `src/mcts/utils.rs` and `src/mcts/noise.rs` on rows of `f32`, every operation rounded.  Libtorch
adds the entries of a row in an order of its own choosing (in blocks, with several accumulators): the order is a parameter,
a tree with the entries at its leaves.
-/

namespace DieE.Fp

/-- An order of adding up a row: an accumulator that starts at zero, an entry of the row, a sum of two such sums. -/
inductive SumTree where
  | zero
  | entry (c : Nat)
  | node (l r : SumTree)

/-- The entries added, from left to right. -/
def SumTree.codes : SumTree → List Nat
  | .zero => []
  | .entry c => [c]
  | .node l r => l.codes ++ r.codes

/-- `row.sum(None)`, `row.sum_dim_intlist(1, true, None)`: utils.rs:33, 56, 70, 82. -/
def SumTree.sum (p : Nat → Num) : SumTree → Num
  | .zero => .fin 0
  | .entry c => p c
  | .node l r => Num.add f32 (l.sum p) (r.sum p)

/-- `values.iter().sum()`, utils.rs:94: one accumulator, the entries in order. -/
def SumTree.inOrder (N : Nat) : SumTree := (List.range N).foldl (fun s c => .node s (.entry c)) .zero

/-- `index_put` without accumulation on a row of `f32`: the writes in order. -/
def put (p : Nat → Num) (ws : List (Nat × Num)) : Nat → Num :=
  ws.foldl (fun p w => fun c => if c = w.1 then w.2 else p c) p

/-- `get_prob_tensor`, utils.rs:20-34, and a row of `get_prob_tensor_parallel`, utils.rs:43-57: the visits written into a
row of zeros and divided by the sum.  `ws` are the codes and visits of the children, `T` is the order of adding up. -/
def visitShares (T : SumTree) (ws : List (Nat × Num)) : Nat → Num :=
  let row := put (fun _ => .fin 0) ws
  fun c => Num.div f32 (row c) (T.sum row)

/-- A row of `turn_policy_to_probs_tensor_parallel`, utils.rs:61-71: the row times a mask of zeros and ones, divided by the
sum. -/
def priorBatch (T : SumTree) (pol : Nat → Num) (codes : List Nat) : Nat → Num :=
  let mask := put (fun _ => .fin 0) (codes.map fun c => (c, .fin 1))
  let row := fun c => Num.mul f32 (pol c) (mask c)
  fun c => Num.div f32 (row c) (T.sum row)

/-- `turn_policy_to_probs_tensor`, utils.rs:75-83: the selected entries copied into a row of zeros, divided by the sum. -/
def priorTensor (T : SumTree) (pol : Nat → Num) (codes : List Nat) : Nat → Num :=
  let row := put (fun _ => .fin 0) (codes.map fun c => (c, pol c))
  fun c => Num.div f32 (row c) (T.sum row)

/-- `turn_policy_to_probs`, utils.rs:87-102, for vectors of `N` entries (1352 in the code; `double_value(..) as f32` returns
the `f32` of the tensor): as above, but only the selected entries are divided, one after the other. -/
def priorVec (N : Nat) (pol : Nat → Num) (codes : List Nat) : Nat → Num :=
  let values := put (fun _ => .fin 0) (codes.map fun c => (c, pol c))
  let sum := (SumTree.inOrder N).sum values
  codes.foldl (fun v c => fun d => if d = c then Num.div f32 (v c) sum else v d) values

/-- `1. - eps`, noise.rs:19 and 33. -/
def rest (eps : Rat) : Num := Num.add f32 (.fin 1) (.fin (-eps))

/-- `(1. - eps) * tensor + eps * diriclet_tensor`, noise.rs:33, for one entry. -/
def mixTensor (eps : Rat) (p noise : Num) : Num :=
  Num.add f32 (Num.mul f32 (rest eps) p) (Num.mul f32 (.fin eps) noise)

/-- `noise * eps + child.policy * (1. - eps)`, noise.rs:19. -/
def mixChild (eps : Rat) (p noise : Num) : Num :=
  Num.add f32 (Num.mul f32 noise (.fin eps)) (Num.mul f32 p (rest eps))

end DieE.Fp
