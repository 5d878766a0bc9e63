import Verif.Mcts.Alpha
import Mathlib.Algebra.Order.Field.Rat

/-!
# Visit shares, priors and the weighted choice, in exact arithmetic

`src/mcts/utils.rs`, `src/mcts/noise.rs` and `weighted_select_tensor_idx` of `src/alphazero/alphazero.rs`.  Entries of a
row are rational numbers or NaN; rounding is not modelled.  A row of width `N` is a function of the code, of which only
the codes below `N` matter.
-/

namespace DieE.Mcts

/-- A number, or `none` for NaN. -/
abbrev Val := Option Rat

/-- `+` of floats: NaN absorbs. -/
def Val.add : Val → Val → Val
  | some x, some y => some (x + y)
  | _, _ => none

/-- `/` of floats.  Dividing by zero gives NaN: all numerators here are entries of a non-negative row whose sum is the
denominator, hence zero too. -/
def Val.div : Val → Val → Val
  | some x, some y => if y = 0 then none else some (x / y)
  | _, _ => none

/-- A row of a tensor. -/
abbrev Row := Nat → Val

/-- `row.sum(None)`, `sum_dim_intlist(1, true, None)`. -/
def rowSum (N : Nat) (p : Row) : Val := (List.range N).foldl (fun s c => s.add (p c)) (some 0)

/-- `is_nonzero()`: NaN is not equal to zero. -/
def Val.isNonzero : Val → Bool
  | none => true
  | some x => decide (x ≠ 0)

/-- A row of zeros. -/
def zeroRow : Row := fun _ => some 0

/-- `index_put` without accumulation: the writes in order. -/
def putAll (p : Row) (ws : List (Nat × Val)) : Row :=
  ws.foldl (fun p w => fun c => if c = w.1 then w.2 else p c) p

/-- Division of a row by its sum. -/
def normalise (N : Nat) (p : Row) : Row := fun c => (p c).div (rowSum N p)

/-! ## Visit shares -/

variable {G : Game} {Fl : Floats}

/-- Code and visits of the children of a node, utils.rs:23-28 and 44-50; `s` is the state used for encoding. -/
def childVisits (s : G.S) (st : Store G Fl) (n : Node G Fl) : Res (List (Nat × Val)) :=
  n.children.mapM fun c => do
    let m ← getNode st c
    match m.action with
    | none => .error .unwrapNone
    | some a => do
      let code ← G.encode s a
      pure (code, some (m.visits : Rat))

/-- `get_prob_tensor`, utils.rs:12-35. -/
def getProbTensor (s : G.S) (root : Nat) (st : Store G Fl) : Res (Option Row) := do
  let n ← getNode st root
  if n.children.isEmpty then pure none
  else do
    let ws ← childVisits s st n
    if ∀ w ∈ ws, w.1 < G.actionSpace then pure (some (normalise G.actionSpace (putAll zeroRow ws)))
    else .error .tensorError

/-- `get_prob_tensor_parallel`, utils.rs:42-58: the rows of the result. -/
def getProbTensorParallel (nodes : List (Node G Fl)) (st : Store G Fl) : Res (List Row) := do
  let wss ← nodes.mapM fun n => childVisits n.state st n
  if ∀ ws ∈ wss, ∀ w ∈ ws, w.1 < G.actionSpace then
    pure (wss.map fun ws => normalise G.actionSpace (putAll zeroRow ws))
  else .error .tensorError

/-- `row.pow_(1.0 / temperature)`; `pw` is `x ↦ x^(1/T)` on numbers. -/
def temper (pw : Rat → Rat) (p : Row) : Row := fun c => (p c).map pw

/-- `WeightedIndex::new` accepts the entry: a number, not negative. -/
def Val.isWeight : Val → Bool
  | none => false
  | some x => decide (0 ≤ x)

/-- `weighted_select_tensor_idx`, alphazero.rs:129-137: `WeightedIndex::new` fails (and is unwrapped) on an empty list,
on a negative weight or NaN, and if all weights are zero; otherwise `sample` returns an index of positive weight. -/
def weightedSelect (N : Nat) (p : Row) : M Nat :=
  if (List.range N).all fun c => (p c).isWeight then do
    let r ← M.choose ((List.range N).filter fun c => decide (p c ≠ some 0))
    match r with
    | some c => pure c
    | none => M.fail .unwrapNone
  else M.fail .unwrapNone

/-! ## Priors -/

/-- utils.rs:61-71: the masked row divided by its sum. -/
def priorBatchExact (N : Nat) (pol : Row) (codes : List Nat) : Row :=
  let mask := putAll zeroRow (codes.map fun c => (c, some 1))
  normalise N fun c => match pol c, mask c with
    | some x, some m => some (x * m)
    | _, _ => none

/-- utils.rs:75-83: the selected entries copied into a row of zeros, divided by the sum. -/
def priorTensorExact (N : Nat) (pol : Row) (codes : List Nat) : Row :=
  normalise N (putAll zeroRow (codes.map fun c => (c, pol c)))

/-- utils.rs:87-102: as above, but only the selected entries are divided, one after the other. -/
def priorVecExact (N : Nat) (pol : Row) (codes : List Nat) : Row :=
  let values := putAll zeroRow (codes.map fun c => (c, pol c))
  let sum := rowSum N values
  codes.foldl (fun v c => fun d => if d = c then (v c).div sum else v d) values

/-- noise.rs:19 and noise.rs:33: mixing an entry with noise. -/
def mixExact (eps : Rat) (p noise : Val) : Val :=
  match p, noise with
  | some x, some n => some ((1 - eps) * x + eps * n)
  | _, _ => none

end DieE.Mcts
