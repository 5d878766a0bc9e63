import Verif.Versus.Short
import Verif.Props.Versus

/-!
# C121: the scheduling of the parallel searches has no influence on the matches

`get_actions_for_player` runs the plain searches and the random choices of all games with `par_iter` (versus.rs:305-316);
the model runs them one after the other.
-/

namespace DieE.Props.Pl
open DieE DieE.Mcts DieE.Versus DieE.Prob
variable {G : Game} {Fl : Floats}

/-- The computation is a parallel run of `f` for all the states. -/
def Scheduled (f : G.S → M G.Mv) (ss : List G.S) (m : M (List G.Mv)) : Prop :=
  ∃ ps T, List.Forall₂ (fun s p => Rep (f s) p) ss ps ∧ Par ps T ∧ Rep m T

/-- The actions of a player whose searches are run in parallel, versus.rs:270-319: the schedule may be a different one in
every round and for all states, and may depend on the numbers read.  The search with a network is not parallel. -/
def InParallel (pl : Player Fl) (cfg : Config) (set : Nat → Nat → List Nat) (acts : Acts G) : Prop := ∀ k ss,
  match pl.agent with
  | .mcts => Scheduled (fun s => mctSearch Fl s (G.player s) cfg.iterations cfg.limit) ss (acts k ss)
  | .random => Scheduled randomAction ss (acts k ss)
  | _ => acts k ss = getActions pl cfg (set k) ss

/-- The match with the given actions of the players. -/
def playWith (pf : Profile) (rnd : Rat → Rat) (a1 a2 : Agent) (acts1 acts2 : Acts G) (n limit : Nat) (o : Orders) (f : Nat) :
    M (PlayResult G) := do
  let m ← playRun a1 a2 acts1 acts2 n limit o.map f
  M.lift (result pf rnd a1 a2 n m)

theorem eachGame_law (ν : PMF ℕ) {f : G.S → M G.Mv} {ss : List G.S} {ps : List (Prog (Res G.Mv))}
    (h : List.Forall₂ (fun s p => Rep (f s) p) ss ps) :
    ∃ q, Law ν (eachGame f ss) q ∧ q.map known = together ν ps := by
  induction h with
  | nil => exact ⟨_, law_pure ν _, PMF.pure_map _ _⟩
  | @cons s p ss ps h _ ih =>
    obtain ⟨q, hq, e⟩ := ih
    refine ⟨_, law_bind ⟨p, h, rfl⟩ fun a => law_bind hq fun as => law_pure ν (a :: as), ?_⟩
    rw [known_andThen, together, PMF.bind_map]
    congr 1
    funext r
    cases r with
    | error e => rfl
    | ok a =>
      show PMF.map known (andThen _ _) = PMF.map _ _
      rw [known_andThen, e, ← PMF.bind_pure_comp]
      congr 1
      funext r
      cases r with
      | none => rfl
      | some as => exact PMF.pure_map _ _

/-- A parallel run is as good as the sequential one. -/
theorem Scheduled.like {f : G.S → M G.Mv} {ss : List G.S} {m : M (List G.Mv)} (h : Scheduled f ss m) :
    Like m (eachGame f ss) := by
  intro ν
  obtain ⟨ps, T, h1, h2, h3⟩ := h
  obtain ⟨q, hq, e⟩ := eachGame_law ν h1
  exact ⟨_, q, ⟨T, h3, rfl⟩, hq, (par_law ν h2).trans e.symm⟩

theorem getActions_each (pl : Player Fl) (cfg : Config) (order : Nat → List Nat) (ss : List G.S) :
    getActions pl cfg order ss = match pl.agent with
      | .mcts => eachGame (fun s => mctSearch Fl s (G.player s) cfg.iterations cfg.limit) ss
      | .random => eachGame randomAction ss
      | _ => getActions pl cfg order ss := by
  cases h : pl.agent <;> cases ss <;> simp [getActions, h, eachGame]

theorem InParallel.like (hd : Brief G) {pl : Player Fl} {cfg : Config} {set : Nat → Nat → List Nat} {acts : Acts G}
    (h : InParallel pl cfg set acts) (k : Nat) (ss : List G.S) : Like (acts k ss) (getActions pl cfg (set k) ss) := by
  have h := h k ss
  rw [getActions_each]
  revert h
  cases pl.agent with
  | mcts => exact Scheduled.like
  | random => exact Scheduled.like
  | model => exact fun h => by rw [h]; exact (getActions_short hd.toShorts ..).like
  | none => exact fun h => by rw [h]; exact (getActions_short hd.toShorts ..).like

theorem playWith_like (hd : Brief G) (pf : Profile) (rnd : Rat → Rat) {p1 p2 : Player Fl} {cfg : Config} (n limit : Nat)
    {o : Orders} {acts1 acts2 : Acts G} (h1 : InParallel p1 cfg o.set1 acts1) (h2 : InParallel p2 cfg o.set2 acts2) (f : Nat) :
    Like (playWith pf rnd p1.agent p2.agent acts1 acts2 n limit o f) (playN pf rnd p1 p2 cfg n limit o f) :=
  (playRun_like hd _ _ (h1.like hd) (h2.like hd) _ _ _ _).bind fun _ => (short_lift _).like

/-- C121: however the searches of a match are scheduled, all results (wins, draws, the recorded games and their order)
have the same probability as in the model, in which they are run one after the other; the numbers are independent and
equally distributed. -/
theorem C121_law (hd : Brief G) (pf : Profile) (rnd : Rat → Rat) {p1 p2 : Player Fl} {cfg : Config} (n limit : Nat)
    {o : Orders} {acts1 acts2 : Acts G} (h1 : InParallel p1 cfg o.set1 acts1) (h2 : InParallel p2 cfg o.set2 acts2) (f : Nat)
    (ν : PMF ℕ) (A : Set (PlayResult G)) :
    iid ν {t | ∃ r ∈ A, value (playWith pf rnd p1.agent p2.agent acts1 acts2 n limit o f) t = .ok r} =
      iid ν {t | ∃ r ∈ A, value (playN pf rnd p1 p2 cfg n limit o f) t = .ok r} :=
  (playWith_like hd pf rnd n limit h1 h2 f).prob ν A

/-- C121: every result of a match with parallel searches is a result of the model for some random numbers, and the
other way round.  So what holds for all runs of the model also holds for all parallel runs. -/
theorem C121_possible (hd : Brief G) (pf : Profile) (rnd : Rat → Rat) {p1 p2 : Player Fl} {cfg : Config} (n limit : Nat)
    {o : Orders} {acts1 acts2 : Acts G} (h1 : InParallel p1 cfg o.set1 acts1) (h2 : InParallel p2 cfg o.set2 acts2) (f : Nat)
    (r : PlayResult G) :
    (∃ t, value (playWith pf rnd p1.agent p2.agent acts1 acts2 n limit o f) t = .ok r) ↔
      ∃ t, value (playN pf rnd p1 p2 cfg n limit o f) t = .ok r :=
  have h := playWith_like hd pf rnd n limit h1 h2 f
  ⟨fun ⟨_, ht⟩ => h.possible ht, fun ⟨_, ht⟩ => h.symm.possible ht⟩

/-- C121: the probability of a panic is also the same. -/
theorem C121_panics (hd : Brief G) (pf : Profile) (rnd : Rat → Rat) {p1 p2 : Player Fl} {cfg : Config} (n limit : Nat)
    {o : Orders} {acts1 acts2 : Acts G} (h1 : InParallel p1 cfg o.set1 acts1) (h2 : InParallel p2 cfg o.set2 acts2) (f : Nat)
    (ν : PMF ℕ) :
    iid ν {t | ∃ e, value (playWith pf rnd p1.agent p2.agent acts1 acts2 n limit o f) t = .error e} =
      iid ν {t | ∃ e, value (playN (G := G) pf rnd p1 p2 cfg n limit o f) t = .error e} :=
  (playWith_like hd pf rnd n limit h1 h2 f).prob_panic ν

/-- C121: and a parallel match can panic only if the model can. -/
theorem C121_safe (hd : Brief G) (pf : Profile) (rnd : Rat → Rat) {p1 p2 : Player Fl} {cfg : Config} (n limit : Nat)
    {o : Orders} {acts1 acts2 : Acts G} (h1 : InParallel p1 cfg o.set1 acts1) (h2 : InParallel p2 cfg o.set2 acts2) (f : Nat) :
    (∃ t e, value (playWith pf rnd p1.agent p2.agent acts1 acts2 n limit o f) t = .error e) ↔
      ∃ t e, value (playN (G := G) pf rnd p1 p2 cfg n limit o f) t = .error e :=
  have h := playWith_like hd pf rnd n limit h1 h2 f
  ⟨fun ⟨_, _, ht⟩ => h.panics ht, fun ⟨_, _, ht⟩ => h.symm.panics ht⟩

/-! ## A schedule -/

theorem Par.first {α : Type} {ps : List (Prog (Res α))} {T : Prog (Res (List α))} (h : Par ps T) (p : Prog (Res α)) :
    Par (p :: ps) (T.andThen fun as => p.andThen fun a => .done (.ok (a :: as))) := by
  induction h with
  | done as =>
    show Par _ (p.andThen _)
    induction p with
    | done r =>
      cases r with
      | ok a => exact Par.done (a :: as)
      | error e => exact Par.panic (List.mem_cons_self ..)
    | read f ih => exact Par.step (i := 0) rfl ih
  | panic h => exact Par.panic (List.mem_cons_of_mem _ h)
  | @step ps i f T h _ ih => exact Par.step (i := i + 1) (by simpa using h) fun x => by simpa using ih x

/-- The searches are run from the last game to the first. -/
def backwards (f : G.S → M G.Mv) : List G.S → M (List G.Mv)
  | [] => pure []
  | s :: ss => do
    let as ← backwards f ss
    let a ← f s
    pure (a :: as)

theorem backwards_scheduled {f : G.S → M G.Mv} (hf : ∀ s, Short (f s)) (ss : List G.S) : Scheduled f ss (backwards f ss) := by
  induction ss with
  | nil => exact ⟨[], .done (.ok []), .nil, Par.done [], fun _ => rfl⟩
  | cons s ss ih =>
    obtain ⟨ps, T, h1, h2, h3⟩ := ih
    obtain ⟨p, hp⟩ := hf s
    exact ⟨p :: ps, _, .cons hp h1, Par.first h2 p, rep_bind h3 fun as => rep_bind hp fun a => fun _ => rfl⟩

/-- For given random numbers the schedule does matter: two random moves in TicTacToe. -/
example : value (backwards (G := TTT.game .debug) randomAction [TTT.new, TTT.new]) (fun n => n) = .ok ([1, 0] : List Nat) ∧
    value (eachGame (G := TTT.game .debug) randomAction [TTT.new, TTT.new]) (fun n => n) = .ok ([0, 1] : List Nat) := by
  constructor <;> rfl

/-- Two random players in Backgammon whose games are played from the last to the first. -/
example (o : Orders) (f : Nat) (ν : PMF ℕ) (A : Set (PlayResult (BG.game .debug))) :
    iid ν {t | ∃ r ∈ A, value (playWith .debug id .random .random (fun _ => backwards randomAction)
        (fun _ => backwards randomAction) 400 400 o f) t = .ok r} =
      iid ν {t | ∃ r ∈ A, value (playN .debug id V.randomPlayer V.randomPlayer V.demoConfig 400 400 o f) t = .ok r} :=
  have h (set : Nat → Nat → List Nat) : InParallel (G := BG.game .debug) V.randomPlayer V.demoConfig set
      (fun _ => backwards randomAction) := fun _ ss => backwards_scheduled randomAction_short ss
  C121_law (bg_brief _) _ _ _ _ (h o.set1) (h o.set2) f ν A

end DieE.Props.Pl
