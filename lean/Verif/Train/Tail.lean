import Verif.Versus.Thrift
import Verif.Train.Learn

/-!
# What is left of the random numbers

Self-play and matches take numbers from the front of the tape and leave the others.
-/

namespace DieE.Train
open DieE.Mcts DieE.Versus

variable {G : Game} {Fl : Floats} {W : Type}

/-- The computation takes finitely many numbers from the front of the tape. -/
def Eats {α : Type} (m : M α) : Prop := ∀ t a t', m t = .ok (a, t') → ∃ k, t' = skipTape k t

theorem Eats.of_cost {α : Type} {m : M α} {c : Nat} (h : Cost c m) : Eats m := by
  intro t a t' e
  obtain ⟨k, -, h1⟩ := h t a t' e
  exact ⟨k, h1⟩

theorem eats_pure {α : Type} (a : α) : Eats (pure a : M α) := .of_cost (cost_pure a 0)

theorem eats_lift {α : Type} (x : Res α) : Eats (M.lift x) := .of_cost (cost_lift x 0)

theorem eats_fail {α : Type} (e : Panic) : Eats (M.fail e : M α) := by
  intro t a t' h
  cases h

theorem eats_bind {α β : Type} {m : M α} {f : α → M β} (hm : Eats m) (hf : ∀ a, Eats (f a)) : Eats (m >>= f) := by
  intro t b t' h
  obtain ⟨a, t1, h1, h2⟩ := M.bind_ok.1 h
  obtain ⟨k, rfl⟩ := hm _ _ _ h1
  obtain ⟨k', rfl⟩ := hf _ _ _ _ h2
  exact ⟨k + k', skipTape_add _ _ _⟩

/-- The operations of a game take finitely many numbers. -/
structure Eater (G : Game) : Prop where
  apply : ∀ s a, Eats (G.apply s a)
  skip : ∀ s, Eats (G.skip s)
  roll : ∀ s, Eats (G.roll s)

theorem eats_weightedSelect (n : Nat) (row : Row) : Eats (weightedSelect n row) := by
  unfold weightedSelect
  split
  · refine eats_bind (.of_cost (cost_choose _)) fun r => ?_
    cases r with
    | none => exact eats_fail _
    | some x => exact eats_pure _
  · exact eats_fail _

theorem eats_expandLoop (hG : Eater G) {n : Node G Fl} {prior : Nat → Res Fl.F} (as : List G.Mv) (st : Store G Fl) (ch : List Nat) :
    Eats (alphaExpandLoop n prior as st ch) := by
  induction as generalizing st ch with
  | nil => exact eats_pure _
  | cons a as ih =>
    unfold alphaExpandLoop
    exact eats_bind (eats_lift _) fun _ => eats_bind (eats_lift _) fun _ => eats_bind (hG.apply _ _) fun _ =>
      eats_bind (eats_lift _) fun r => ih r.1 _

theorem eats_expandWith (hG : Eater G) (n : Node G Fl) (prior : Nat → Res Fl.F) (st : Store G Fl) : Eats (alphaExpandWith n prior st) := by
  unfold alphaExpandWith
  exact eats_bind (eats_expandLoop hG _ _ _) fun _ => eats_bind (eats_lift _) fun _ => eats_pure _

theorem eats_expandRoots (hG : Eater G) (probs : Tensor Fl.F) (is : List Nat) (st : Store G Fl) : Eats (expandRoots probs is st) := by
  induction is generalizing st with
  | nil => exact eats_pure _
  | cons i is ih =>
    unfold expandRoots
    exact eats_bind (eats_lift _) fun _ => eats_bind (eats_lift _) fun _ => eats_bind (eats_expandWith hG _ _ _) fun r => ih r.1

theorem eats_start (hG : Eater G) (net : Net Fl) (ss : List G.S) (st : Store G Fl) : Eats (parallelStart net ss st) := by
  unfold parallelStart
  refine eats_bind (eats_lift _) fun _ => eats_bind (eats_lift _) fun _ => eats_bind (eats_lift _) fun _ => eats_bind ?_ fun _ =>
    eats_bind (eats_lift _) fun _ => eats_bind (eats_lift _) fun _ => eats_expandRoots hG _ _ _
  refine eats_bind ?_ fun _ => eats_pure _
  unfold sampleDirichlet
  split
  · exact eats_bind (.of_cost cost_draw) fun _ => eats_pure _
  · exact eats_fail _

theorem eats_expandPhase (hG : Eater G) (net : Net Fl) (policy eval : Tensor Fl.F) (l : List (Nat × Nat)) (st : Store G Fl) :
    Eats (expandPhase net policy eval l st) := by
  induction l generalizing st with
  | nil => exact eats_pure _
  | cons p l ih =>
    obtain ⟨row, i⟩ := p
    unfold expandPhase
    exact eats_bind (eats_lift _) fun _ => eats_bind (eats_lift _) fun _ => eats_bind (eats_lift _) fun _ => eats_bind (eats_lift _) fun _ =>
      eats_bind (eats_expandWith hG _ _ _) fun _ => eats_bind (eats_lift _) fun _ => eats_bind (eats_lift _) fun st' => ih st'

theorem eats_iteration (hG : Eater G) (net : Net Fl) (order : List Nat) (st : Store G Fl) (sel : List Nat) :
    Eats (parallelIteration net order st sel) := by
  unfold parallelIteration
  refine eats_bind (eats_lift _) fun r => ?_
  obtain ⟨st1, sel1, flag⟩ := r
  simp only
  split
  · exact eats_pure _
  · exact eats_bind (eats_lift _) fun _ => eats_bind (eats_lift _) fun _ => eats_bind (eats_expandPhase hG _ _ _ _ _) fun _ => eats_pure _

theorem eats_iterate (hG : Eater G) (net : Net Fl) (order : List Nat) (k : Nat) (st : Store G Fl) (sel : List Nat) :
    Eats (parallelIterate net order k st sel) := by
  induction k generalizing st sel with
  | zero => exact eats_pure _
  | succ k ih =>
    unfold parallelIterate
    exact eats_bind (eats_iteration hG _ _ _ _) fun r => ih r.1 r.2

theorem eats_parallel (hG : Eater G) (net : Net Fl) (order : List Nat) (ss : List G.S) (k : Nat) (st : Store G Fl) :
    Eats (alphaMctsParallel net order ss k st) := by
  unfold alphaMctsParallel
  exact eats_bind (eats_start hG _ _ _) fun _ => eats_bind (eats_iterate hG _ _ _ _ _) fun _ => eats_pure _

/-! ## Self-play -/

theorem eats_playState (hG : Eater G) (cfg : SelfPlayConfig) (row : Row) (root : Node G Fl) (i : Nat) (s : G.S) (sp : SelfPlay G) :
    Eats (playState cfg row root i s sp) := by
  unfold playState
  refine eats_bind (eats_lift _) fun sp => ?_
  split
  · exact eats_bind (eats_lift _) fun _ => eats_bind (hG.skip _) fun _ => eats_pure _
  · refine eats_bind (eats_weightedSelect _ _) fun _ => eats_bind (eats_lift _) fun _ => eats_bind (eats_lift _) fun _ =>
      eats_bind (eats_lift _) fun _ => eats_bind (eats_lift _) fun _ => eats_bind (eats_lift _) fun _ => eats_bind (hG.apply _ _) fun s' =>
      eats_bind (eats_lift _) fun sp => ?_
    simp only
    split
    · exact eats_bind (eats_lift _) fun _ => eats_pure _
    · exact eats_pure _

theorem eats_playStates (hG : Eater G) (cfg : SelfPlayConfig) (rows : List Row) (st : Store G Fl) (l : List (Nat × G.S)) (k : Nat)
    (sp : SelfPlay G) : Eats (playStates cfg rows st k l sp) := by
  induction l generalizing k sp with
  | nil => exact eats_pure _
  | cons e l ih =>
    obtain ⟨i, s⟩ := e
    unfold playStates
    exact eats_bind (eats_lift _) fun _ => eats_bind (eats_lift _) fun _ => eats_bind (eats_playState hG _ _ _ _ _ _) fun r =>
      eats_bind (ih _ r.2) fun _ => eats_pure _

theorem eats_selfLoop (hG : Eater G) (net : Net Fl) (cfg : SelfPlayConfig) (o : Train.Orders G) (f k : Nat) (pool : List (Nat × G.S))
    (sp : SelfPlay G) : Eats (selfLoop net cfg o f k pool sp) := by
  induction f generalizing k pool sp with
  | zero =>
    unfold selfLoop
    split
    · exact eats_pure _
    · exact eats_fail _
  | succ f ih =>
    unfold selfLoop
    split
    · exact eats_pure _
    · refine eats_bind ?_ fun r => ih _ r.1 r.2
      unfold selfRound
      exact eats_bind (eats_parallel hG _ _ _ _ _) fun _ => eats_bind (eats_lift _) fun _ => eats_bind (eats_lift _) fun _ =>
        eats_bind (eats_playStates hG _ _ _ _ _ _) fun _ => eats_pure _

theorem eats_start_game (hG : Eater G) : Eats (start G) := by
  unfold start
  split
  · exact eats_pure _
  · exact hG.roll _

theorem eats_startAll (hG : Eater G) (is : List Nat) : Eats (startAll G is) := by
  induction is with
  | nil => exact eats_pure _
  | cons i is ih =>
    unfold startAll
    exact eats_bind (eats_start_game hG) fun _ => eats_bind ih fun _ => eats_pure _

theorem eats_selfPlayParallel (hG : Eater G) (net : Net Fl) (cfg : SelfPlayConfig) (o : Train.Orders G) (n f : Nat) :
    Eats (selfPlayParallel net cfg o n f) :=
  eats_bind (eats_bind (eats_startAll hG _) fun _ => eats_selfLoop hG _ _ _ _ _ _ _) fun _ => eats_pure _

theorem eats_selfPlays (hG : Eater G) (S : Setup Fl W) (o : Nat → Train.Orders G) (w : W) (k j : Nat) (memory : List Mem) :
    Eats (selfPlays S o w k j memory) := by
  induction k generalizing j memory with
  | zero => exact eats_pure _
  | succ k ih =>
    unfold selfPlays
    exact eats_bind (eats_selfPlayParallel hG _ _ _ _ _) fun _ => eats_bind (eats_lift _) fun _ => eats_bind (ih _ _) fun _ => eats_pure _

/-! ## Matches -/

theorem eats_playAction (hG : Eater G) (a1 a2 : Agent) (limit round : Nat) (first : Bool) (a : G.Mv) (g : G.S) (m : Match G)
    (E : List Nat) : Eats (playAction a1 a2 limit round first a g m E) := by
  unfold playAction
  refine eats_bind (eats_lift _) fun sr => ?_
  obtain ⟨s, r⟩ := sr
  simp only
  split
  · exact eats_bind (hG.skip _) fun _ => eats_pure _
  · refine eats_bind (eats_lift _) fun _ => eats_bind (eats_lift _) fun _ => eats_bind (hG.apply _ _) fun s' => ?_
    split
    · exact eats_pure _
    · split
      · exact eats_pure _
      · split <;> exact eats_pure _

theorem eats_playActions (hG : Eater G) (a1 a2 : Agent) (limit round : Nat) (l : List (Bool × G.Mv × G.S)) (m : Match G) (E : List Nat) :
    Eats (playActions a1 a2 limit round l m E) := by
  induction l generalizing m E with
  | nil => exact eats_pure _
  | cons e l ih =>
    obtain ⟨first, a, g⟩ := e
    unfold playActions
    exact eats_bind (eats_playAction hG _ _ _ _ _ _ _ _ _) fun r => ih r.1 r.2

theorem eats_playLoop (hG : Eater G) {a1 a2 : Agent} {acts1 acts2 : Acts G} (h1 : ∀ k ss, Eats (acts1 k ss)) (h2 : ∀ k ss, Eats (acts2 k ss))
    (n limit : Nat) (order : Nat → List Nat → List Nat) (f k : Nat) (m : Match G) :
    Eats (playLoop a1 a2 acts1 acts2 n limit order f k m) := by
  induction f generalizing k m with
  | zero =>
    unfold playLoop
    split
    · exact eats_pure _
    · exact eats_fail _
  | succ f ih =>
    unfold playLoop
    split
    · exact eats_pure _
    · refine eats_bind ?_ fun m => ih _ m
      unfold playRound
      exact eats_bind (h1 _ _) fun _ => eats_bind (h2 _ _) fun _ => eats_bind (eats_playActions hG _ _ _ _ _ _ _) fun _ => eats_lift _

theorem eats_chooseAll (pw : Rat → Rat) (roots : List (Node G Fl)) (rows : List Row) : Eats (chooseAll pw roots rows) :=
  .of_cost (cost_chooseAll pw roots rows)

theorem eats_model (hG : Eater G) {pl : Player Fl} (hp : pl.agent = .model) (cfg : Config) (order : Nat → List Nat) (ss : List G.S) :
    Eats (getActions pl cfg order ss) := by
  unfold getActions
  split
  · exact eats_pure _
  · rw [hp]
    exact eats_bind (eats_lift _) fun _ => eats_bind (eats_parallel hG _ _ _ _ _) fun _ => eats_bind (eats_lift _) fun _ =>
      eats_chooseAll _ _ _

theorem eats_initState (hG : Eater G) (n i : Nat) : Eats (initState G n i) := by
  unfold initState
  refine eats_bind ?_ fun _ => eats_bind ?_ fun _ => eats_pure _
  · split
    · exact hG.skip _
    · exact eats_pure _
  · split
    · exact hG.roll _
    · exact eats_pure _

theorem eats_initGames (hG : Eater G) (a1 a2 : Agent) (n : Nat) (is : List Nat) (g : Nat → Option (G.S × Rec G)) :
    Eats (initGames a1 a2 n is g) := by
  induction is generalizing g with
  | nil => exact eats_pure _
  | cons i is ih =>
    unfold initGames
    exact eats_bind (eats_initState hG _ _) fun _ => ih _

/-- A match of network players leaves the rest of the tape. -/
theorem eats_playN (hG : Eater G) {pf : Profile} {rnd : Rat → Rat} {p1 p2 : Player Fl} (h1 : p1.agent = .model) (h2 : p2.agent = .model)
    (cfg : Config) (n limit : Nat) (o : Versus.Orders) (f : Nat) : Eats (playN (G := G) pf rnd p1 p2 cfg n limit o f) := by
  unfold playN
  refine eats_bind ?_ fun _ => eats_lift _
  unfold playRun
  exact eats_bind (eats_initGames hG _ _ _ _ _) fun _ => eats_playLoop hG (fun _ _ => eats_model hG h1 _ _ _)
    (fun _ _ => eats_model hG h2 _ _ _) _ _ _ _ _ _

end DieE.Train
