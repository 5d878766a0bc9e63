import Verif.Mcts.Model

/-!
# Model of the network-guided searches

`src/mcts/alpha_mcts.rs` and the parts of `src/mcts/node.rs`, `src/mcts/noise.rs` and `src/mcts/utils.rs` it uses,
generic over the game.

The network and the floating point arithmetic are opaque: a `Net` gives some policy entry and some value for every row
of a batch, and some result for the arithmetic expressions on priors.  Shapes and index checks of the tensors are
modelled.  Exact values of priors and visit shares are the subject of `Verif/Mcts/Probs.lean`.
-/

namespace DieE.Mcts

/-- The network of a run, and the arithmetic on priors. -/
structure Net (Fl : Floats) where
  /-- entry of the policy head for a batch, a row and a move code (nnet.rs) -/
  policy : Tensor Int → Nat → Nat → Fl.F
  /-- value head for a batch and a row (nnet.rs) -/
  eval : Tensor Int → Nat → Fl.F
  /-- utils.rs:69-71: a row of the policy, the codes of its mask, and a code -/
  priorBatch : (Nat → Fl.F) → List Nat → Nat → Fl.F
  /-- utils.rs:80-83: a policy, the selected codes, and a code -/
  priorTensor : (Nat → Fl.F) → List Nat → Nat → Fl.F
  /-- utils.rs:94-100: a policy, the selected codes, and a code -/
  priorVec : (Nat → Fl.F) → List Nat → Nat → Fl.F
  /-- a Dirichlet sample as a function of a random number -/
  noise : Nat → Nat → Fl.F
  /-- noise.rs:33: policy entry and noise -/
  mixTensor : Fl.F → Fl.F → Fl.F
  /-- noise.rs:19: prior of a child and noise -/
  mixChild : Fl.F → Fl.F → Fl.F
  /-- `Dirichlet::new` accepts the configured `alpha` (it rejects non-positive values) -/
  alphaOk : Bool

variable {G : Game} {Fl : Floats}

/-- First result of `forward_t`, and `forward_policy` (nnet.rs:120-133): a row per row of the batch. -/
def Net.policyTensor (net : Net Fl) (G : Game) (x : Tensor Int) : Tensor Fl.F :=
  ⟨[x.shape.headD 0, G.actionSpace], fun idx => net.policy x (idx.getD 0 0) (idx.getD 1 0)⟩

/-- Second result of `forward_t` (nnet.rs:120-129): one value per row of the batch. -/
def Net.evalTensor (net : Net Fl) (x : Tensor Int) : Tensor Fl.F :=
  ⟨[x.shape.headD 0, 1], fun idx => net.eval x (idx.getD 0 0)⟩

/-- `Dirichlet::new(&vec![alpha; n]).unwrap().sample(..)`: at least two entries and a positive `alpha` are needed. -/
def sampleDirichlet (net : Net Fl) (n : Nat) : M (Nat → Fl.F) :=
  if 2 ≤ n ∧ net.alphaOk = true then do
    let r ← M.draw
    pure (net.noise r)
  else M.fail .unwrapNone

/-- The codes of the expandable moves of a node, utils.rs:64-66 and 76-78. -/
def codesOf (n : Node G Fl) : Res (List Nat) := n.expandable.mapM (G.encode n.state)

/-- `turn_policy_to_probs_tensor_parallel`, utils.rs:60-72, for the indices `0..k` and a policy with `k` rows: the
writes into the mask need all codes to be below the width. -/
def probsTensorBatch (net : Net Fl) (st : Store G Fl) (idxs : List Nat) (policy : Tensor Fl.F) : Res (Tensor Fl.F) := do
  let codes ← idxs.mapM fun i => do
    let n ← getNode st i
    codesOf n
  if ∀ l ∈ codes, ∀ c ∈ l, c < policy.shape.getD 1 0 then
    pure ⟨policy.shape, fun idx => net.priorBatch (fun c => policy.at' [idx.getD 0 0, c])
      (codes.getD (idx.getD 0 0) []) (idx.getD 1 0)⟩
  else .error .tensorError

/-- `turn_policy_to_probs_tensor`, utils.rs:74-84, for a one-dimensional policy: reading and writing the entries needs
all codes to be below its length. -/
def probsTensor (net : Net Fl) (policy : Tensor Fl.F) (n : Node G Fl) : Res (Tensor Fl.F) := do
  let codes ← codesOf n
  if ∀ c ∈ codes, c < policy.shape.getD 0 0 then
    pure ⟨policy.shape, fun idx => net.priorTensor (fun c => policy.at' [c]) codes (idx.getD 0 0)⟩
  else .error .tensorError

/-- The loop of `turn_policy_to_probs`, utils.rs:89-93: `double_value(&[code])` and then the write into the vector of
1352 entries.  Returns the codes. -/
def probsVecLoop (policy : Tensor Fl.F) (s : G.S) : List G.Mv → Res (List Nat)
  | [] => .ok []
  | a :: as => do
    let c ← G.encode s a
    let _ ← policy.value [c]
    if c < 1352 then do
      let l ← probsVecLoop policy s as
      pure (c :: l)
    else .error .indexOutOfBounds

/-- `turn_policy_to_probs`, utils.rs:86-103: the vector of 1352 priors as a function of the code. -/
def probsVec (net : Net Fl) (policy : Tensor Fl.F) (n : Node G Fl) : Res (Nat → Fl.F) := do
  let codes ← probsVecLoop policy n.state n.expandable
  pure fun c => net.priorVec (fun c => policy.at' [c]) codes c

/-- The loop of `alpha_expand` and `alpha_expand_tensor`, node.rs:140-153 and 158-172: `prior` is the indexing
operation of the policy.  Returns the store and the indices of the new children. -/
def alphaExpandLoop (n : Node G Fl) (prior : Nat → Res Fl.F) : List G.Mv → Store G Fl → List Nat →
    M (Store G Fl × List Nat)
  | [], st, ch => pure (st, ch)
  | a :: as, st, ch => do
    let code ← M.lift (G.encode n.state a)
    let value ← M.lift (prior code)
    let next ← G.apply n.state a
    let (st, c) ← M.lift (addNode st next (some n.idx) (some a) value)
    alphaExpandLoop n prior as st (ch ++ [c])

/-- `alpha_expand_tensor`, node.rs:157-174; `alpha_expand`, node.rs:139-155, differs in the indexing operation.
Returns the store and the caller's copy of the node. -/
def alphaExpandWith (n : Node G Fl) (prior : Nat → Res Fl.F) (st : Store G Fl) : M (Store G Fl × Node G Fl) := do
  let (st, ch) ← alphaExpandLoop n prior n.expandable st []
  let n := { n with children := n.children ++ ch, expandable := [] }
  let st ← M.lift (setNode st n)
  pure (st, n)

/-- `alpha_expand_tensor`, node.rs:157-174. -/
def alphaExpandTensor (n : Node G Fl) (policy : Tensor Fl.F) (st : Store G Fl) : M (Store G Fl × Node G Fl) :=
  alphaExpandWith n (fun c => policy.value [c]) st

/-- `alpha_expand`, node.rs:139-155, for the vector of 1352 entries returned by `turn_policy_to_probs`. -/
def alphaExpandVec (n : Node G Fl) (policy : Nat → Fl.F) (st : Store G Fl) : M (Store G Fl × Node G Fl) :=
  alphaExpandWith n (fun c => if c < 1352 then .ok (policy c) else .error .indexOutOfBounds) st

/-- `select_alpha`, alpha_mcts.rs:22-33. -/
def selectAlpha (i : Nat) (st : Store G Fl) : Res (Node G Fl) := do
  let node ← getNode st i
  let cs ← childNodes st node
  let best ← maxBy (fun a b => do
    let x ← a.alphaUcb st
    let y ← b.alphaUcb st
    pure (Fl.cmp x y)) cs
  match best with
  | some c => pure c
  | none => .error .explicitPanic

/-- `alpha_select_leaf_node`, alpha_mcts.rs:14-20, with a bound on the recursion. -/
def alphaLeaf (st : Store G Fl) : Nat → Nat → Res Nat
  | 0, _ => .error .fuel
  | f + 1, i => do
    let node ← getNode st i
    if node.children.isEmpty then pure node.idx
    else do
      let c ← selectAlpha i st
      alphaLeaf st f c.idx

/-- `alpha_select_leaf_node` as called. -/
def alphaLeafNode (i : Nat) (st : Store G Fl) : Res Nat := alphaLeaf st st.length i

/-! ## The single-game search -/

/-- `Node::apply_dirichlet`, noise.rs:9-22. -/
def applyDirichletNode (net : Net Fl) (n : Node G Fl) (st : Store G Fl) : M (Store G Fl) := do
  M.lift (assert (decide (0 < n.visits)))
  let noise ← sampleDirichlet net n.children.length
  M.lift (n.children.zipIdx.foldlM (fun st (c, k) =>
    modifyNode st c fun m => { m with policy := net.mixChild m.policy (noise k) }) st)

/-- `apply_dirichlet_to_root`, alpha_mcts.rs:35-51. -/
def applyDirichletToRoot (net : Net Fl) (root : Nat) (state : G.S) (st : Store G Fl) : M (Store G Fl) := do
  let n ← M.lift (getNode st root)
  let x ← M.lift (G.tensor state)
  let probs ← M.lift (probsVec net (net.policyTensor G x) n)
  let (st, n) ← alphaExpandVec n probs st
  if n.children.length < 2 then pure st
  else do
    let n := { n with visits := 1 }
    let st ← applyDirichletNode net n st
    M.lift (setNode st n)

/-- `(winner + 1) / 2` in `i8`, converted to `f32`, alpha_mcts.rs:79. -/
def halfWin (w : Int) : Int := (w + 1) / 2

/-- One iteration of `alpha_mcts`, alpha_mcts.rs:67-83.  The value of a terminal leaf is taken from the *searched*
state, whose winner is unwrapped. -/
def alphaIteration (net : Net Fl) (root : Nat) (state : G.S) (st : Store G Fl) : M (Store G Fl) := do
  let i ← M.lift (alphaLeafNode root st)
  let sel ← M.lift (getNode st i)
  if !sel.isTerminal then do
    let x ← M.lift (G.tensor sel.state)
    let probs ← M.lift (probsVec net (net.policyTensor G x) sel)
    let (st, _) ← alphaExpandVec sel probs st
    let value ← M.lift ((net.evalTensor x).value [0])
    M.lift (backpropagate i value st)
  else
    match G.winner state with
    | some w => M.lift (backpropagate i (Fl.ofInt (halfWin w)) st)
    | none => M.fail .unwrapNone

/-- The loop of `alpha_mcts`. -/
def alphaIterate (net : Net Fl) (root : Nat) (state : G.S) : Nat → Store G Fl → M (Store G Fl)
  | 0, st => pure st
  | k + 1, st => do
    let st ← alphaIteration net root state st
    alphaIterate net root state k st

/-- `alpha_mcts`, alpha_mcts.rs:53-85, up to the call of `get_prob_tensor` on the returned store (`None` for a terminal
state). -/
def alphaMcts (net : Net Fl) (state : G.S) (iterations : Nat) : M (Option (Store G Fl)) :=
  match G.winner state with
  | some _ => pure none
  | none => do
    let (st, root) ← M.lift (addNode (Fl := Fl) [] state none none (Fl.ofInt 0))
    let st ← applyDirichletToRoot net root state st
    let st ← alphaIterate net root state iterations st
    pure (some st)

/-! ## The batched search -/

/-- `Tensor::stack(&ts, 0).squeeze_dim(1)`, alpha_mcts.rs:98-101 and 180-183. -/
def batchTensor (ts : List (Tensor Int)) : Res (Tensor Int) := do
  let x ← Tensor.stack ts 0
  x.squeezeDim1

/-- `apply_dirichlet`, noise.rs:27-34: one noise row, added to every row of the policy. -/
def applyDirichletTensor (net : Net Fl) (policy : Tensor Fl.F) : M (Tensor Fl.F) := do
  let noise ← sampleDirichlet net (policy.shape.getD 1 0)
  pure ⟨policy.shape, fun idx => net.mixTensor (policy.at' idx) (noise (idx.getD 1 0))⟩

/-- The loop adding the roots, alpha_mcts.rs:110-112. -/
def addRoots : List G.S → Store G Fl → Res (Store G Fl)
  | [], st => .ok st
  | s :: ss, st => do
    let (st, _) ← addNode st s none none (Fl.ofInt 0)
    addRoots ss st

/-- The loop expanding the roots, alpha_mcts.rs:119-127, over the indices `is`. -/
def expandRoots (probs : Tensor Fl.F) : List Nat → Store G Fl → M (Store G Fl)
  | [], st => pure st
  | i :: is, st => do
    let root ← M.lift (getNode st i)
    let root := { root with visits := 1 }
    let row ← M.lift (probs.get i)
    let (st, _) ← alphaExpandTensor root row st
    expandRoots probs is st

/-- The preparation of `alpha_mcts_parallel`, alpha_mcts.rs:94-127. -/
def parallelStart (net : Net Fl) (states : List G.S) (st : Store G Fl) : M (Store G Fl) := do
  M.lift (assert st.isEmpty)
  let ts ← M.lift (states.mapM G.tensor)
  let x ← M.lift (batchTensor ts)
  let policy ← applyDirichletTensor net (net.policyTensor G x)
  let st ← M.lift (addRoots states st)
  let probs ← M.lift (probsTensorBatch net st (List.range states.length) policy)
  expandRoots probs (List.range states.length) st

/-- The body of the selection loop, alpha_mcts.rs:154-167, for one game; `sel` is `selected_nodes_idxs`, the flag is
`node_selected`. -/
def selectGame (g : Nat) (st : Store G Fl) (sel : List Nat) (flag : Bool) : Res (Store G Fl × List Nat × Bool) := do
  let i ← alphaLeafNode g st
  let node ← getNode st i
  match G.winner node.state with
  | some w => do
    let root ← getNode st g
    let st ← backpropagate i (Fl.ofInt (outcome w (G.player root.state))) st
    pure (st, sel, flag)
  | none =>
    if g < sel.length then pure (st, sel.set g node.idx, true) else .error .indexOutOfBounds

/-- The selection loop, alpha_mcts.rs:153-168; `order` is the iteration order of the `HashSet` of games. -/
def selectPhase (order : List Nat) (st : Store G Fl) (sel : List Nat) (flag : Bool) :
    Res (Store G Fl × List Nat × Bool) :=
  order.foldlM (fun (st, sel, flag) g => selectGame g st sel flag) (st, sel, flag)

/-- The loop over the selected nodes, alpha_mcts.rs:192-200; the first list pairs `processed_idx` with `node_idx`. -/
def expandPhase (net : Net Fl) (policy eval : Tensor Fl.F) : List (Nat × Nat) → Store G Fl → M (Store G Fl)
  | [], st => pure st
  | (row, i) :: rest, st => do
    let node ← M.lift (getNode st i)
    let p ← M.lift (policy.get row)
    let e ← M.lift (eval.get row)
    let probs ← M.lift (probsTensor net p node)
    let (st, node) ← alphaExpandTensor node probs st
    let value ← M.lift (e.value [0])
    let st ← M.lift (backpropagate node.idx value st)
    expandPhase net policy eval rest st

/-- One iteration of `alpha_mcts_parallel`, alpha_mcts.rs:149-201. -/
def parallelIteration (net : Net Fl) (order : List Nat) (st : Store G Fl) (sel : List Nat) :
    M (Store G Fl × List Nat) := do
  let (st, sel, flag) ← M.lift (selectPhase order st sel false)
  if !flag then pure (st, sel)
  else do
    let ts ← M.lift (sel.mapM fun i => do
      let n ← getNode st i
      G.tensor n.state)
    let x ← M.lift (batchTensor ts)
    let st ← expandPhase net (net.policyTensor G x) (net.evalTensor x) ((List.range sel.length).zip sel) st
    pure (st, sel)

/-- The loop of `alpha_mcts_parallel`. -/
def parallelIterate (net : Net Fl) (order : List Nat) : Nat → Store G Fl → List Nat → M (Store G Fl × List Nat)
  | 0, st, sel => pure (st, sel)
  | k + 1, st, sel => do
    let (st, sel) ← parallelIteration net order st sel
    parallelIterate net order k st sel

/-- `alpha_mcts_parallel`, alpha_mcts.rs:91-202; `order` is the iteration order of the `HashSet` `games`. -/
def alphaMctsParallel (net : Net Fl) (order : List Nat) (states : List G.S) (iterations : Nat) (st : Store G Fl) :
    M (Store G Fl) := do
  let st ← parallelStart net states st
  let (st, _) ← parallelIterate net order iterations st (List.replicate states.length 0)
  pure st

end DieE.Mcts
