import Verif.Train.Learn
import Verif.Train.Spec
import Verif.Train.DataSpec
import Verif.Versus.Spec

/-!
# Specification of training runs

What a learn iteration should do, and what should be stored at the end.  `selfPlayRun`, `batchTensors` and `playRun` are
specified elsewhere (C45, C46, C64; C65; C52–C57).
-/

namespace DieE.Train
open DieE.Mcts

variable {G : Game} {Fl : Floats} {W : Type}

/-- The fragments of a learn iteration. -/
def Iter.memory (N : Nat) (it : Iter W) : List Mem := it.results.flatten.map (Frag.mem N)

/-- `xs` are the batches of an epoch over the fragments `mem`: every fragment is in exactly one batch, exactly once,
no batch is empty or too long, and all but the last one are full. -/
def Epoch (b : Nat) (mem : List Mem) (xs : List (List Mem)) : Prop :=
  xs.flatten.Perm mem ∧ (∀ x ∈ xs, 0 < x.length ∧ x.length ≤ b) ∧ ∀ x ∈ xs.dropLast, x.length = b

/-- Optimizer steps for batches, one after the other. -/
inductive Steps (step : W → Tensor Int × Tensor Val × Tensor Int → Res W) : List (List Mem) → W → W → Prop
  | nil (w : W) : Steps step [] w w
  | cons {x : List Mem} {xs : List (List Mem)} {y : Tensor Int × Tensor Val × Tensor Int} {w w1 w2 : W} :
      batchTensors x = .ok y → step w y = .ok w1 → Steps step xs w1 w2 → Steps step (x :: xs) w w2

/-- A learn iteration: all games are played with the weights before, by self-play with valid orders and some tape, and the
weights afterwards come from optimizer steps on batches of all their fragments in every epoch. -/
structure Iter.Proper (S : Setup Fl W) (G : Game) (it : Iter W) : Prop where
  /-- number of self-play iterations -/
  count : it.results.length = S.selfPlays
  /-- their results -/
  played : ∀ r ∈ it.results, ∃ (o : Orders G) (sp : SelfPlay G) (t t' : Tape), o.Valid ∧
    selfPlayRun (S.net it.before) S.play o S.games (S.play.limit + 1) t = .ok (sp, t') ∧ r = sp.all
  /-- the training -/
  trained : ∃ es : List (List (List Mem)), es.length = S.epochs ∧ (∀ xs ∈ es, Epoch S.batch (it.memory G.actionSpace) xs) ∧
    Steps S.step es.flatten it.before it.after

/-- Each iteration continues with the weights of the one before. -/
def Continued (w : W) : List (Iter W) → Prop
  | [] => True
  | it :: l => it.before = w ∧ Continued it.after l

/-- A match of 400 games between networks with weights `w` (player 1) and `b`, of which player 1 wins `k`. -/
def Beats (S : Setup Fl W) (G : Game) (w b : W) (k : Nat) : Prop :=
  ∃ (o : Versus.Orders) (f : Nat) (t t' : Tape) (m : Versus.Match G), o.Valid ∧
    Versus.playRun .model .model
      (fun i => Versus.getActions ({ agent := .model, net := some (S.net w) } : Versus.Player Fl) S.versus (o.set1 i))
      (fun i => Versus.getActions ({ agent := .model, net := some (S.net b) } : Versus.Player Fl) S.versus (o.set2 i))
      400 400 o.map f t = .ok (m, t') ∧
    k = ((List.range 400).filter fun i => decide (Versus.outcome (m.steps i) = -1)).length

/-- The best model after the iterations, given the one before: the first one if there was none, and afterwards the last
one that won at least 55 percent of the games against the best model of that time. -/
inductive Best (S : Setup Fl W) (G : Game) : Option W → List (Iter W) → Option W → Prop
  | nil (b : Option W) : Best S G b [] b
  | first {it : Iter W} {l : List (Iter W)} {b : Option W} : Best S G (some it.after) l b → Best S G none (it :: l) b
  | won {it : Iter W} {l : List (Iter W)} {b : W} {b' : Option W} {k : Nat} : Beats S G it.after b k → 220 ≤ k →
      Best S G (some it.after) l b' → Best S G (some b) (it :: l) b'
  | lost {it : Iter W} {l : List (Iter W)} {b : W} {b' : Option W} {k : Nat} : Beats S G it.after b k → k < 220 →
      Best S G (some b) l b' → Best S G (some b) (it :: l) b'

end DieE.Train
