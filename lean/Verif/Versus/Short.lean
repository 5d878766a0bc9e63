import Verif.Props.Rollout
import Verif.Schedule
import Verif.Versus.Model

/-!
# The match loop reads finitely many numbers

Every part of the searches and of a match with a bounded number of rounds is a tree of reads (`Short`), so its events are
measurable and its results have a distribution.
-/

namespace DieE.Versus
open DieE DieE.Mcts DieE.Prob DieE.Props.Ro
variable {G : Game} {Fl : Floats}

/-- Moves, passes and rolls draw finitely many numbers. -/
structure Brief (G : Game) : Prop extends Shorts G where
  roll : ∀ s, Short (G.roll s)

theorem mctSearch_short (hd : Shorts G) (s : G.S) (player : Int) (iterations limit : Nat) :
    Short (mctSearch Fl s player iterations limit) := by
  unfold mctSearch
  split
  · exact short_pure _
  · refine Short.bind ?_ fun p => short_lift _
    exact (short_lift _).bind fun p => iterate_short hd ..

theorem randomAction_short (s : G.S) : Short (randomAction s) :=
  (short_lift _).bind fun ms => (short_choose ms).bind fun _ => short_pure _

theorem eachGame_short {f : G.S → M G.Mv} (hf : ∀ s, Short (f s)) (ss : List G.S) : Short (eachGame f ss) := by
  induction ss with
  | nil => exact short_pure _
  | cons s ss ih => exact (hf s).bind fun _ => ih.bind fun _ => short_pure _

theorem sampleDirichlet_short (net : Net Fl) (n : Nat) : Short (sampleDirichlet net n) := by
  unfold sampleDirichlet
  split
  · exact short_draw.bind fun _ => short_pure _
  · exact short_fail _

theorem alphaExpandLoop_short (hd : Shorts G) (n : Node G Fl) (prior : Nat → Res Fl.F) (as : List G.Mv) (st : Store G Fl)
    (ch : List Nat) : Short (alphaExpandLoop n prior as st ch) := by
  induction as generalizing st ch with
  | nil => exact short_pure _
  | cons a as ih =>
    exact (short_lift _).bind fun _ => (short_lift _).bind fun _ => (hd.apply ..).bind fun _ => (short_lift _).bind fun p =>
      ih ..

theorem alphaExpandWith_short (hd : Shorts G) (n : Node G Fl) (prior : Nat → Res Fl.F) (st : Store G Fl) :
    Short (alphaExpandWith n prior st) :=
  (alphaExpandLoop_short hd ..).bind fun _ => (short_lift _).bind fun _ => short_pure _

theorem expandRoots_short (hd : Shorts G) (probs : Tensor Fl.F) (is : List Nat) (st : Store G Fl) :
    Short (expandRoots probs is st) := by
  induction is generalizing st with
  | nil => exact short_pure _
  | cons i is ih =>
    exact (short_lift _).bind fun _ => (short_lift _).bind fun _ => (alphaExpandWith_short hd ..).bind fun p => ih _

theorem parallelStart_short (hd : Shorts G) (net : Net Fl) (states : List G.S) (st : Store G Fl) :
    Short (parallelStart net states st) :=
  (short_lift _).bind fun _ => (short_lift _).bind fun _ => (short_lift _).bind fun _ =>
    Short.bind ((sampleDirichlet_short ..).bind fun _ => short_pure _) fun _ => (short_lift _).bind fun _ =>
      (short_lift _).bind fun _ => expandRoots_short hd ..

theorem expandPhase_short (hd : Shorts G) (net : Net Fl) (policy eval : Tensor Fl.F) (l : List (Nat × Nat)) (st : Store G Fl) :
    Short (expandPhase net policy eval l st) := by
  induction l generalizing st with
  | nil => exact short_pure _
  | cons x l ih =>
    exact (short_lift _).bind fun _ => (short_lift _).bind fun _ => (short_lift _).bind fun _ => (short_lift _).bind fun _ =>
      (alphaExpandWith_short hd ..).bind fun p => (short_lift _).bind fun _ => (short_lift _).bind fun _ => ih _

theorem parallelIteration_short (hd : Shorts G) (net : Net Fl) (order : List Nat) (st : Store G Fl) (sel : List Nat) :
    Short (parallelIteration net order st sel) := by
  unfold parallelIteration
  refine (short_lift _).bind fun p => ?_
  obtain ⟨st, sel, flag⟩ := p
  cases flag
  · exact short_pure _
  · exact (short_lift _).bind fun _ => (short_lift _).bind fun _ => (expandPhase_short hd ..).bind fun _ => short_pure _

theorem parallelIterate_short (hd : Shorts G) (net : Net Fl) (order : List Nat) (k : Nat) (st : Store G Fl) (sel : List Nat) :
    Short (parallelIterate net order k st sel) := by
  induction k generalizing st sel with
  | zero => exact short_pure _
  | succ k ih => exact (parallelIteration_short hd ..).bind fun p => ih ..

theorem alphaMctsParallel_short (hd : Shorts G) (net : Net Fl) (order : List Nat) (states : List G.S) (iterations : Nat)
    (st : Store G Fl) : Short (alphaMctsParallel net order states iterations st) :=
  (parallelStart_short hd ..).bind fun _ => (parallelIterate_short hd ..).bind fun _ => short_pure _

theorem weightedSelect_short (N : Nat) (p : Row) : Short (weightedSelect N p) := by
  unfold weightedSelect
  split
  · refine (short_choose _).bind fun r => ?_
    cases r with
    | some c => exact short_pure _
    | none => exact short_fail _
  · exact short_fail _

theorem chooseAll_short (pw : Rat → Rat) (roots : List (Node G Fl)) (rows : List Row) : Short (chooseAll pw roots rows) := by
  induction roots generalizing rows with
  | nil => exact short_pure _
  | cons root roots ih =>
    cases rows with
    | nil => exact short_fail _
    | cons row rows =>
      refine Short.bind ?_ fun _ => (ih _).bind fun _ => short_pure _
      split
      · exact short_pure _
      · exact (weightedSelect_short ..).bind fun _ => short_lift _

theorem getActions_short (hd : Shorts G) (pl : Player Fl) (cfg : Config) (order : Nat → List Nat) (games : List G.S) :
    Short (getActions pl cfg order games) := by
  unfold getActions
  split
  · exact short_pure _
  · split
    · exact (short_lift _).bind fun _ => (alphaMctsParallel_short hd ..).bind fun _ => (short_lift _).bind fun _ =>
        chooseAll_short ..
    · exact eachGame_short (fun s => mctSearch_short hd ..) _
    · exact eachGame_short randomAction_short _
    · exact short_fail _

theorem initState_short (hd : Brief G) (n idx : Nat) : Short (initState G n idx) := by
  unfold initState
  refine Short.bind ?_ fun s => Short.bind ?_ fun _ => short_pure _
  · split
    · exact hd.skip _
    · exact short_pure _
  · split
    · exact hd.roll _
    · exact short_pure _

theorem initGames_short (hd : Brief G) (a1 a2 : Agent) (n : Nat) (is : List Nat) (g : Nat → Option (G.S × Rec G)) :
    Short (initGames a1 a2 n is g) := by
  induction is generalizing g with
  | nil => exact short_pure _
  | cons i is ih => exact (initState_short hd ..).bind fun _ => ih _

theorem playAction_short (hd : Shorts G) (a1 a2 : Agent) (limit round : Nat) (first : Bool) (a : G.Mv) (g : G.S) (m : Match G)
    (remove : List Nat) : Short (playAction a1 a2 limit round first a g m remove) := by
  unfold playAction
  refine (short_lift _).bind fun p => ?_
  obtain ⟨s, r⟩ := p
  show Short (ite _ _ _)
  split
  · exact (hd.skip _).bind fun _ => short_pure _
  · refine (short_lift _).bind fun _ => (short_lift _).bind fun _ => (hd.apply ..).bind fun s' => ?_
    have key : ∀ w : Option Int, Short (match w with
        | none => pure (m.put (G.id g) s' r ⟨first, s, a, s'⟩, remove)
        | some w =>
          if w = -1 then
            pure ({ m.put (G.id g) s' { r with winner := a1 } ⟨first, s, a, s'⟩ with wins1 := m.wins1 + 1 }, remove ++ [G.id g])
          else if w = -(-1) then
            pure ({ m.put (G.id g) s' { r with winner := a2 } ⟨first, s, a, s'⟩ with wins2 := m.wins2 + 1 }, remove ++ [G.id g])
          else pure (m.put (G.id g) s' { r with winner := .none } ⟨first, s, a, s'⟩, remove ++ [G.id g]) : M (Match G × List Nat)) := by
      intro w
      cases w with
      | none => exact short_pure _
      | some w =>
        show Short (ite _ _ _)
        split
        · exact short_pure _
        · split <;> exact short_pure _
    exact key _

theorem playActions_short (hd : Shorts G) (a1 a2 : Agent) (limit round : Nat) (l : List (Bool × G.Mv × G.S)) (m : Match G)
    (remove : List Nat) : Short (playActions a1 a2 limit round l m remove) := by
  induction l generalizing m remove with
  | nil => exact short_pure _
  | cons x l ih => exact (playAction_short hd ..).bind fun p => ih ..

/-- Alike decisions of the players make alike rounds. -/
theorem playRound_like (hd : Shorts G) (a1 a2 : Agent) {acts1 acts2 acts1' acts2' : Acts G}
    (h1 : ∀ k ss, Like (acts1 k ss) (acts1' k ss)) (h2 : ∀ k ss, Like (acts2 k ss) (acts2' k ss)) (limit : Nat)
    (order : List Nat) (k : Nat) (m : Match G) :
    Like (playRound a1 a2 acts1 acts2 limit order k m) (playRound a1 a2 acts1' acts2' limit order k m) :=
  (h1 _ _).bind fun _ => (h2 _ _).bind fun _ => (playActions_short hd ..).like.bind fun _ => (short_lift _).like

theorem playLoop_like (hd : Shorts G) (a1 a2 : Agent) {acts1 acts2 acts1' acts2' : Acts G}
    (h1 : ∀ k ss, Like (acts1 k ss) (acts1' k ss)) (h2 : ∀ k ss, Like (acts2 k ss) (acts2' k ss)) (n limit : Nat)
    (order : Nat → List Nat → List Nat) (f k : Nat) (m : Match G) :
    Like (playLoop a1 a2 acts1 acts2 n limit order f k m) (playLoop a1 a2 acts1' acts2' n limit order f k m) := by
  induction f generalizing k m with
  | zero =>
    unfold playLoop
    split
    · exact (short_pure _).like
    · exact (short_fail _).like
  | succ f ih =>
    unfold playLoop
    split
    · exact (short_pure _).like
    · exact (playRound_like hd a1 a2 h1 h2 _ _ _ _).bind fun m => ih _ _

theorem playRun_like (hd : Brief G) (a1 a2 : Agent) {acts1 acts2 acts1' acts2' : Acts G}
    (h1 : ∀ k ss, Like (acts1 k ss) (acts1' k ss)) (h2 : ∀ k ss, Like (acts2 k ss) (acts2' k ss)) (n limit : Nat)
    (order : Nat → List Nat → List Nat) (f : Nat) :
    Like (playRun a1 a2 acts1 acts2 n limit order f) (playRun a1 a2 acts1' acts2' n limit order f) :=
  (initGames_short hd ..).like.bind fun _ => playLoop_like hd.toShorts a1 a2 h1 h2 _ _ _ _ _ _

theorem playN_short (hd : Brief G) (pf : Profile) (rnd : Rat → Rat) (p1 p2 : Player Fl) (cfg : Config) (n limit : Nat)
    (o : Orders) (f : Nat) : Short (playN (G := G) pf rnd p1 p2 cfg n limit o f) :=
  (playRun_like hd _ _ (fun _ _ => (getActions_short hd.toShorts ..).like) (fun _ _ => (getActions_short hd.toShorts ..).like)
    _ _ _ _).short.1.bind fun _ => short_lift _

theorem bg_brief (pf : Profile) : Brief (BG.game pf) := by
  refine ⟨bg_shorts pf, fun s => ?_⟩
  have hr : Short BG.rollDice := short_die.bind fun a => short_die.bind fun b => short_pure _
  exact hr.bind fun _ => short_pure _

theorem ttt_brief (pf : Profile) : Brief (TTT.game pf) := ⟨ttt_shorts pf, fun _ => short_fail _⟩

end DieE.Versus
