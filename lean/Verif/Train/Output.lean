import Verif.Train.Learn
import Verif.Versus.Report

/-!
# Model of the output of `learn`

What `learn_parallel` (`src/alphazero/alpha_parallel.rs`) and `play_vs_best_model` (`src/alphazero/alpha_versus.rs`) print,
on top of the model of the training runs.  There are two streams: `println!` writes to the standard output, and
`self.pb.println` writes above the progress bars.  The bars themselves are left out.  The text of an error of the library is
a parameter.
-/

namespace DieE.Train
open DieE.Mcts DieE.Text DieE.Versus

/-- What is printed. -/
structure Out where
  /-- standard output -/
  stdout : Name
  /-- the messages above the progress bars -/
  bar : List Name

/-- One after the other. -/
def Out.then (a b : Out) : Out := ⟨a.stdout ++ b.stdout, a.bar ++ b.bar⟩

variable {G : Game} {Fl : Floats} {W : Type}

/-- `play_vs_model`, alpha_versus.rs:57-81, with the line of `play` (versus.rs:161) and the result (alpha_versus.rs:73). -/
def playVsModelOut (S : Setup Fl W) (G : Game) (o : Versus.Orders) (f : Nat) (self other : W) : M (Option Nat × Name) := do
  let r ← play (G := G) S.pf S.rnd { agent := .model, net := some (S.net self) } { agent := .model, net := some (S.net other) } S.versus o f
  pure (if r.winrate ≥ S.rnd (55 / 100) then some 1 else if r.winrate ≤ S.rnd (45 / 100) then some 2 else none,
    line [] ++ line (lit "Starting play!") ++ line (lit "Match result: " ++ r.text))

/-- `play_vs_best_model`, alpha_versus.rs:16-55, with the message of `from_path` (nnet.rs:114); `dir` is the directory of the
models. -/
def playBestOut (dir err : Name) (S : Setup Fl W) (G : Game) (o : Versus.Orders) (f : Nat) (w : W) (ms : Models W) : M (Models W × Out) :=
  match ms.bind (fun d => d bestName) with
  | none => pure (saveModel ms bestName w,
      { stdout := line (lit "No best model was found, saving current model as best...") ++
          (if ms.isSome then line (lit "model saved!") else line (lit "unable to save model, caught error: " ++ err)), bar := [] })
  | some b => do
    let r ← playVsModelOut S G o f w b
    let v ← (match r.1 with
      | some 1 => pure (true, lit "new model was better!")
      | some 2 => pure (false, lit "current best model is still better!")
      | none => pure (false, lit "new model vs current best was inconclusive, keeping current best!")
      | some _ => M.fail .unreachableCode : M (Bool × Name))
    pure (if v.1 then saveModel ms bestName w else ms,
      { stdout := line (lit "Successfully loaded model on path " ++ (dir ++ ['/'] ++ bestName)) ++ r.2,
        bar := v.2 :: (if v.1 then [if ms.isSome then lit "saved new best model" else lit "new model was better! couldn't save :("] else []) })

/-- The message after saving the model of an iteration, alpha_parallel.rs:86-95. -/
def savedOut (dir err : Name) (ms : Models W) (i : Nat) : Out :=
  { stdout := if ms.isSome then line (lit "Iteration " ++ digits i ++ lit " saved successfully, path: " ++ (dir ++ ['/'] ++ modelName i))
      else line (lit "Unable to save model: " ++ (dir ++ ['/'] ++ modelName i) ++ lit ", caught error: " ++ err), bar := [] }

/-- A learn iteration, alpha_parallel.rs:41-98. -/
def learnIterationOut (dir err : Name) (S : Setup Fl W) (c : Chance G) (f i : Nat) (w : W) (ms : Models W) : M (Iter W × Out) := do
  let r ← selfPlays S (c.play i) w S.selfPlays 0 []
  let e ← M.lift (trainEpochs S (c.shuffle i) S.epochs 0 r.2.2 w)
  M.lift (assert (!S.nan e.2))
  let b ← playBestOut dir err S G (c.match' i) f e.2 (saveModel ms (modelName i) e.2)
  pure ({ before := w, results := r.1, dir := r.2.1, epochs := e.1, after := e.2, models := b.1 }, (savedOut dir err ms i).then b.2)

/-- The learn iterations: how many are left, index of the next one. -/
def learnLoopOut (dir err : Name) (S : Setup Fl W) (c : Chance G) (f : Nat) : Nat → Nat → W → Models W → M (List (Iter W) × Out)
  | 0, _, _, _ => pure ([], ⟨[], []⟩)
  | k + 1, i, w, ms => do
    let it ← learnIterationOut dir err S c f i w ms
    let l ← learnLoopOut dir err S c f k (i + 1) it.1.after it.1.models
    pure (it.1 :: l.1, it.2.then l.2)

/-- `learn_parallel`, alpha_parallel.rs:17-99; `id` is the run id. -/
def learnOut (dir err id : Name) (S : Setup Fl W) (c : Chance G) (f : Nat) (w : W) (ms : Models W) : M (List (Iter W) × Out) := do
  let l ← learnLoopOut dir err S c f S.learns 0 w ms
  pure (l.1, Out.then ⟨line (lit "Staring up run with run_id: " ++ id), [lit "Starting learn parallel..."]⟩ l.2)

end DieE.Train
