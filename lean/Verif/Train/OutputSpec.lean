import Verif.Versus.ReportSpec
import Verif.Train.LearnSpec

/-!
# How the output of a training run is read

The definitions do not use the printer.
-/

namespace DieE.Text
open DieE.Train (Name)

/-- What a reader of the standard output keeps in mind. -/
structure Reading where
  /-- the iteration announced last -/
  last : Option Nat
  /-- the iteration whose model is the best one, if a model of this run is -/
  best : Option Nat
  /-- the wins of the new model in the matches so far -/
  wins : List Nat
  deriving DecidableEq

/-- A line of the standard output is read: `Iteration 3 saved …` names the iteration, `model saved!` and a number of wins of at
least 220 (55 percent of 400) make its model the best one. -/
def Reading.line (r : Reading) (l : Name) : Reading :=
  if "Iteration ".toList.isPrefixOf l then { r with last := natValue ((l.drop 10).takeWhile (· ≠ ' ')) }
  else if l = "model saved!".toList then { r with best := r.last }
  else if "Wins Player 1: ".toList.isPrefixOf l then
    match natValue (l.drop 15) with
    | some n => { r with best := if 220 ≤ n then r.last else r.best, wins := r.wins ++ [n] }
    | none => r
  else r

/-- The standard output is read. -/
def readOut (txt : Name) : Reading := (split '\n' txt).foldl Reading.line ⟨none, none, []⟩

/-- The verdicts. -/
inductive Verdict
  /-- the new model is better -/
  | better
  /-- the old one is -/
  | worse
  /-- neither is clearly better -/
  | unclear
  deriving DecidableEq

/-- The verdict for a number of wins out of 400: at least 55 percent, at most 45 percent, or between. -/
def verdictOf (n : Nat) : Verdict := if 220 ≤ n then .better else if n ≤ 180 then .worse else .unclear

/-- The verdict of a message above the progress bars. -/
def verdictIn (msg : Name) : Option Verdict :=
  if msg = "new model was better!".toList then some .better
  else if msg = "current best model is still better!".toList then some .worse
  else if msg = "new model vs current best was inconclusive, keeping current best!".toList then some .unclear
  else none

end DieE.Text

namespace DieE.Train
open DieE.Mcts

variable {G : Game} {Fl : Floats} {W : Type}

/-- The matches of a run, given the best model before: the wins of the new models, and the best model afterwards.  Without a
best model there is no match. -/
inductive Matches (S : Setup Fl W) (G : Game) : Option W → List (Iter W) → List Nat → Option W → Prop
  | nil (b : Option W) : Matches S G b [] [] b
  | first {it : Iter W} {l : List (Iter W)} {ks : List Nat} {b : Option W} : Matches S G (some it.after) l ks b → Matches S G none (it :: l) ks b
  | played {it : Iter W} {l : List (Iter W)} {k : Nat} {ks : List Nat} {b : W} {b' : Option W} : Beats S G it.after b k →
      Matches S G (some (if 220 ≤ k then it.after else b)) l ks b' → Matches S G (some b) (it :: l) (k :: ks) b'

end DieE.Train
