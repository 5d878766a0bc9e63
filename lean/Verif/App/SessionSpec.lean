import Verif.App.Session
import Verif.App.Spec

/-!
# What the runs of the program leave behind
-/

namespace DieE.App
open DieE.Train (Name Tree Models)
open DieE.Versus

/-- The file `n` in the directory of the models of a game. -/
def modelFile (w : Cli.Which) (n : Name) : Path := { abs := false, parts := ["models".toList, gameName w, n] }

/-- The directory of the models of a game. -/
def modelsFolder (w : Cli.Which) : Path := { abs := false, parts := ["models".toList, gameName w] }

/-- The names of the models that `learn` stores. -/
inductive Ours : Name → Prop
  | best : Ours "best_model.ot".toList
  | model (i : Nat) : Ours ("model_".toList ++ Nat.toDigits 10 i ++ ".ot".toList)

/-- The network in the file `n`. -/
def held (E : Env) (w : Cli.Which) (fs : Fs) (n : Name) : Option E.W :=
  match fs (modelFile w n) with
  | some (.file x) => E.load w x
  | _ => none

/-- The files hold the models `ms`: the folder exists if there are models, the names used by `learn` are not names of
directories, and each file holds its network. -/
structure Stores {E : Env} (T : Trainer E) (w : Cli.Which) (fs : Fs) (ms : Models (E.W × T.O)) : Prop where
  folder : ms.isSome → fs (modelsFolder w) = some .dir
  gone : ms = none → fs (modelsFolder w) ≠ some .dir ∧ ∀ n, Ours n → fs (modelFile w n) = none
  files : ∀ d, ms = some d → ∀ n, Ours n → fs (modelFile w n) ≠ some .dir ∧ held E w fs n = (d n).map Prod.fst

/-- A network that is written can be read again (C62). -/
def Trainer.Faithful {E : Env} (T : Trainer E) (w : Cli.Which) : Prop := ∀ x : E.W, E.load w (T.store x) = some x

/-- The command writes the file `q`: `learn` the models of its game, `train` the file named, or the trained model. -/
inductive Writes (a : Cli.Args) : Path → Prop
  | learn {m : Option Name} {n : Name} : a.command = .learn m → Ours n → Writes a (modelFile a.game n)
  | train {m run lrn sp : Option Name} {out : Name} {q : Path} : a.command = .train m (some out) run lrn sp → path out = some q → Writes a q
  | trained {m run lrn sp : Option Name} : a.command = .train m none run lrn sp → Writes a (modelFile a.game "trained_model.ot".toList)

/-- The name of a saved game. -/
def IsGame (q : Path) : Prop := ∃ (dir : Path) (id : Name), q = { dir with parts := dir.parts ++ [id ++ ".json".toList] }

/-- Runs of the program, one after the other, each with its own random numbers; all return. -/
inductive Session {E : Env} (T : Trainer E) : World → List (List Name) → World → Prop
  | nil (wd : World) : Session T wd [] wd
  | cons {wd wd1 wd2 : World} {argv : List Name} {l : List (List Name)} {c : Choices E T} {t t' : Tape} {o : Option Train.Out} :
      (∀ i, Nano (c.ids i)) → invoke T argv wd c t = .ok ((o, wd1), t') → Session T wd1 l wd2 → Session T wd (argv :: l) wd2

end DieE.App
