import Verif.Train.Data

/-!
# Specification of training data

What it means that a fragment is kept by saving and loading, and the directory layout of a run.  Only `Mem`, `Tree`
and the names are shared with the model.
-/

namespace DieE.Train

/-- The shapes of a fragment recorded by self-play: probabilities for `N` codes, a state with a leading dimension of
size one. -/
def Mem.Shaped (N : Nat) (sh : List Nat) (m : Mem) : Prop := m.ps.shape = [N] ∧ m.state.shape = 1 :: sh

/-- `m'` is the fragment `m`: same outcome, same probabilities, same state (without the leading dimension of size
one). -/
def Mem.Kept (m m' : Mem) : Prop :=
  m'.outcome = m.outcome ∧ Tensor.Same m'.ps m.ps ∧ m'.state.shape = m.state.shape.tail ∧
    ∀ idx, Tensor.InShape m'.state.shape idx → m'.state.at' idx = m.state.at' (0 :: idx)

/-- `m'` are the fragments `m`, in some order. -/
def KeptAll (m m' : List Mem) : Prop := ∃ l, List.Perm l m' ∧ List.Forall₂ Mem.Kept m l

/-- What `learn_parallel` saves for the results `res` of the self-play iterations: all fragments so far. -/
def prefixes (res : List (List Mem)) : List (List Mem) :=
  (List.range res.length).map fun k => (res.take (k + 1)).flatten

/-- The results of a learn iteration, with at least two fragments in the first self-play iteration. -/
def Fine (N : Nat) (sh : List Nat) (res : List (List Mem)) : Prop :=
  (∀ r, res.head? = some r → 2 ≤ r.length) ∧ ∀ r ∈ res, ∀ m ∈ r, m.Shaped N sh

/-- The tensors of a batch hold the fragments: row `j` belongs to fragment `j`. -/
structure Holds (N : Nat) (sh : List Nat) (sample : List Mem) (x : Tensor Int × Tensor DieE.Mcts.Val × Tensor Int) : Prop where
  /-- shape of the outcomes -/
  oShape : x.1.shape = [sample.length, 1]
  /-- shape of the probabilities -/
  pShape : x.2.1.shape = [sample.length, N]
  /-- shape of the states -/
  sShape : x.2.2.shape = sample.length :: sh
  /-- row of the outcomes -/
  outcome : ∀ j m, sample[j]? = some m → x.1.at' [j, 0] = m.outcome
  /-- row of the probabilities -/
  ps : ∀ j m, sample[j]? = some m → ∀ c, c < N → x.2.1.at' [j, c] = m.ps.at' [c]
  /-- row of the states -/
  state : ∀ j m, sample[j]? = some m → ∀ idx, Tensor.InShape sh idx →
    x.2.2.at' (j :: idx) = m.state.at' (if m.state.shape = 1 :: sh then 0 :: idx else idx)

end DieE.Train
