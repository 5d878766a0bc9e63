import Verif.Props.Equal

/-!
# C128: a TicTacToe match of two plain searches consists of 400 copies of one game
-/

namespace DieE.Props.Cp
open DieE DieE.Mcts DieE.Versus DieE.Prob MeasureTheory In Ee Ro
variable {Fl : Floats}

/-- What has probability 1 for all distributions of the numbers holds on all tapes. -/
theorem sure {α : Type} {m : M α} (hm : Short m) {A : Set (Res α)} (h : ∀ ν, iid ν {t | value m t ∈ A} = 1) (t : Tape) : value m t ∈ A := by
  obtain ⟨ν, hν⟩ := exists_full
  obtain ⟨T, hT⟩ := hm
  have h1 := h ν
  rw [Law.prob ⟨T, hT, rfl⟩, PMF.toOuterMeasure_apply_eq_one_iff] at h1
  rw [hT.value]
  exact h1 (run_support hν T t)

/-! ## The games played alone -/

/-- A player is to move. -/
def Live (s : TTT.State) : Prop := s.player = 1 ∨ s.player = -1

theorem turn_steady (pf : Profile) (limit k a : Nat) (s : TTT.State) : Steady (turn (G := TTT.game pf) limit k a s) := by
  unfold turn
  split
  · exact (steady_lift _).bind fun _ _ _ _ => steady_pure _
  · exact (steady_lift _).bind fun _ _ _ _ => (steady_lift _).bind fun _ _ _ _ => (steady_lift _).bind fun _ _ _ _ => steady_pure _

theorem live_apply {pf : Profile} {s s' : TTT.State} {a : Nat} (h : Live s) (e : TTT.applyMove pf s a = .ok s') : Live s' := by
  unfold TTT.applyMove at e
  split at e
  · rw [i8_ok (by rcases h with h | h <;> rw [h] <;> decide)] at e
    cases e
    show s.player * -1 = 1 ∨ s.player * -1 = -1
    rcases h with h | h <;> omega
  · cases e

theorem live_skip {pf : Profile} {s s' : TTT.State} (h : Live s) (e : TTT.skipTurn pf s = .ok s') : Live s' := by
  unfold TTT.skipTurn at e
  rw [i8_ok (by rcases h with h | h <;> rw [h] <;> decide)] at e
  cases e
  show s.player * -1 = 1 ∨ s.player * -1 = -1
  rcases h with h | h <;> omega

theorem turn_live {pf : Profile} {limit k a : Nat} {s : TTT.State} (h : Live s) {x : TTT.State × Option Int} {t t' : Tape}
    (e : turn (G := TTT.game pf) limit k a s t = .ok (x, t')) : Live x.1 := by
  unfold turn at e
  split at e
  · obtain ⟨s', t1, h1, h2⟩ := M.bind_ok.1 e
    cases h2
    exact live_skip h (M.lift_ok.1 h1).1
  · obtain ⟨_, t1, -, e⟩ := M.bind_ok.1 e
    obtain ⟨_, t2, -, e⟩ := M.bind_ok.1 e
    obtain ⟨s', t3, h1, h2⟩ := M.bind_ok.1 e
    cases h2
    exact live_apply h (M.lift_ok.1 h1).1

theorem chooser_steady (pf : Profile) {p : Player Fl} (hp : p.agent = .mcts) {cfg : Config} (hl : 0 < cfg.limit) {s : TTT.State} (hs : Live s) :
    Steady (chooser (G := TTT.game pf) p cfg s) := by
  unfold chooser
  rw [hp]
  exact mctSearch_steady (S.ttt_safe pf) (ttt_shorts pf) (fun _ _ => steady_lift _) hs _ _ hl

theorem solo_steady {G : Game} {R : G.S → Prop} {f1 f2 : G.S → M G.Mv} {limit : Nat} (h1 : ∀ s, R s → Steady (f1 s))
    (h2 : ∀ s, R s → Steady (f2 s)) (h3 : ∀ k a s, R s → Steady (turn limit k a s))
    (h4 : ∀ k a s x t t', R s → turn limit k a s t = .ok (x, t') → R x.1) (f k : Nat) {s : G.S} (hs : R s) (l : List (Step G)) :
    Steady (solo f1 f2 limit f k s l) := by
  induction f generalizing k s l with
  | zero => exact ⟨_, fun _ => rfl⟩
  | succ f ih =>
    unfold solo
    refine Steady.bind ?_ fun a _ _ _ => ?_
    · split
      · exact h1 s hs
      · exact h2 s hs
    · refine (h3 (k + 1) a s hs).bind fun x t t' hx => ?_
      show Steady (ite _ _ _)
      split
      · exact steady_pure _
      · exact ih _ (h4 _ _ _ _ _ _ hs hx) _

theorem alone_steady (pf : Profile) {p1 p2 : Player Fl} (h1 : p1.agent = .mcts) (h2 : p2.agent = .mcts) {cfg : Config} (hl : 0 < cfg.limit)
    (n limit f i : Nat) : Steady (alone (G := TTT.game pf) p1 p2 cfg n limit f i) := by
  unfold alone soloGame
  refine Steady.bind ⟨.ok ⟨if i < n / 2 then -1 else 1, TTT.new.board, i⟩, fun t => by unfold value; rw [V.ttt_init]; rfl⟩ fun s t t' hs => ?_
  rw [V.ttt_init] at hs
  cases hs
  refine solo_steady (R := Live) (fun s hs => chooser_steady pf h1 hl hs) (fun s hs => chooser_steady pf h2 hl hs)
    (fun k a s _ => turn_steady pf limit k a s) (fun _ _ _ _ _ _ hs hx => turn_live hs hx) f 0 ?_ []
  show (if i < n / 2 then (-1 : Int) else 1) = 1 ∨ (if i < n / 2 then (-1 : Int) else 1) = -1
  split
  · exact .inr rfl
  · exact .inl rfl

/-- A game of the first half and a game of the second half are the same game with exchanged marks. -/
theorem alone_pair (pf : Profile) (p1 p2 : Player Fl) (cfg : Config) {n i j : Nat} (hi : i < n / 2) (hj : ¬ j < n / 2) (limit f : Nat) :
    RelM (Tracks (marks pf)) (alone p1 p2 cfg n limit f i) (alone p2 p1 cfg n limit f j) := by
  unfold alone soloGame
  refine RelM.bind (P := opposite) (fun t => ?_) fun s s' h =>
    solo_twins (W := marks pf) (chooser_twins p1 cfg) (chooser_twins p2 cfg) limit f 0 h .nil
  rw [V.ttt_init, V.ttt_init, if_pos hi, if_neg hj]
  refine ⟨⟨.inl rfl, rfl, ?_⟩, rfl⟩
  intro i hi
  show TTT.new.board[i] = -TTT.new.board[i]
  unfold TTT.new
  rw [Vector.getElem_replicate]
  rfl

theorem chooser_agent {G : Game} {p p' : Player Fl} (h : p.agent = p'.agent) (cfg : Config) :
    chooser (G := G) p cfg = chooser p' cfg := by
  funext s
  unfold chooser
  rw [h]

/-- The actions of a game. -/
def acts {G : Game} (l : List (Step G)) : List G.Mv := l.map Step.action

theorem acts_tracks {G : Game} {W : Twins G} {l l' : List (Step G)} (h : Tracks W l l') : acts l' = acts l := by
  induction h with
  | nil => rfl
  | cons h _ ih => exact List.cons_eq_cons.2 ⟨h.2, ih⟩

/-! ## The match -/

/-- Every game of the match takes a fixed course. -/
theorem fixed (pf : Profile) (rnd : Rat → Rat) {p1 p2 : Player Fl} (h1 : p1.agent = .mcts) (h2 : p2.agent = .mcts) {cfg : Config}
    (hi : cfg.iterations ≠ 0) (hl : 0 < cfg.limit) (n limit : Nat) :
    ∃ c : Nat → List (Step (TTT.game pf)), (∀ i < n, ∀ t, value (alone p1 p2 cfg n limit 9 i) t = .ok (c i)) ∧
      ∀ o : Orders, o.Valid → ∀ t, ∃ steps, Played pf rnd p1 p2 cfg n limit o 9 t steps ∧ ∀ i < n, steps i = c i := by
  choose r hr using alone_steady pf h1 h2 hl n limit 9
  have hr1 : V.Ready 9 true cfg p1 := .inr (.inr ⟨rfl, h1, hi⟩)
  have hr2 : V.Ready 9 true cfg p2 := .inr (.inr ⟨rfl, h2, hi⟩)
  have hall : ∀ (o : Orders), o.Valid → ∀ t, ∃ steps, Played (G := TTT.game pf) pf rnd p1 p2 cfg n limit o 9 t steps := by
    intro o ho t
    obtain ⟨r, t', h⟩ := V.ttt_returns pf pf rnd hr1 hr2 n limit ho t
    obtain ⟨m, t1, h3, h4⟩ := M.bind_ok.1 h
    obtain ⟨h5, rfl⟩ := M.lift_ok.1 h4
    exact ⟨_, _, r, m, ⟨h3, h5⟩, rfl⟩
  have hok : ∀ i < n, ∃ c, r i = .ok c := by
    intro i hin
    obtain ⟨o, ho⟩ : ∃ o : Orders, o.Valid := ⟨_, V.demoOrders_valid⟩
    have h := C123_independent (V.ttt_ids pf) (ttt_brief pf) pf rnd (.inl h1) (.inl h2) cfg n limit ho 9 (PMF.pure 0) fun _ => Set.univ
    cases hri : r i with
    | ok c => exact ⟨c, rfl⟩
    | error e =>
      exfalso
      rw [Finset.prod_eq_zero (i := i) (Finset.mem_range.2 hin)] at h
      · refine absurd h ?_
        rw [show {t | ∃ steps, Played (G := TTT.game pf) pf rnd p1 p2 cfg n limit o 9 t steps ∧ ∀ i < n, steps i ∈ Set.univ} = Set.univ from
          Set.eq_univ_of_forall fun t => (hall o ho t).imp fun _ h => ⟨h, fun _ _ => trivial⟩, measure_univ]
        exact one_ne_zero
      · refine (congrArg _ (Set.eq_empty_of_forall_notMem ?_)).trans measure_empty
        rintro t ⟨l, -, h⟩
        rw [hr i t, hri] at h
        cases h
  choose c hc using hok
  refine ⟨fun i => if h : i < n then c i h else [], fun i hin t => ?_, fun o ho t => ?_⟩
  · rw [hr i t, hc i hin]
    exact congrArg Except.ok (dif_pos hin).symm
  · have hs : Short (playRun p1.agent p2.agent (fun _ => eachGame (chooser (G := TTT.game pf) p1 cfg)) (fun _ => eachGame (chooser p2 cfg))
        n limit o.map 9 >>= fun m => pure ((List.range n).map m.steps)) := by
      obtain ⟨p, q, h, -⟩ := playRun_ind (V.ttt_ids pf) (ttt_brief pf) (chooser_short (ttt_brief pf) p1 cfg)
        (chooser_short (ttt_brief pf) p2 cfg) n limit p1.agent p2.agent ho.map 9 (PMF.pure 0)
      exact h.short
    let A (i : Nat) : Set (List (Step (TTT.game pf))) := {l | ∀ h : i < n, l = c i h}
    have key := played_iff (V.ttt_ids pf) pf rnd (.inl h1) (.inl h2) cfg n limit ho 9 A
    have hone : ∀ ν, iid ν {t | value (playRun p1.agent p2.agent (fun _ => eachGame (chooser (G := TTT.game pf) p1 cfg))
        (fun _ => eachGame (chooser p2 cfg)) n limit o.map 9 >>= fun m => pure ((List.range n).map m.steps)) t ∈
          {r | ∃ l, r = .ok l ∧ List.Forall₂ (fun a i => a ∈ A i) l (List.range n)}} = 1 := by
      intro ν
      refine (congrArg (iid ν) (Set.ext fun t => (key t).symm)).trans ?_
      refine (C123_independent (V.ttt_ids pf) (ttt_brief pf) pf rnd (.inl h1) (.inl h2) cfg n limit ho 9 ν A).trans ?_
      refine Finset.prod_eq_one fun i hin => ?_
      rw [show {t | ∃ l ∈ A i, value (alone (G := TTT.game pf) p1 p2 cfg n limit 9 i) t = .ok l} = Set.univ from
        Set.eq_univ_of_forall fun t => ⟨c i (Finset.mem_range.1 hin), fun _ => rfl, by rw [hr i t, hc]⟩, measure_univ]
    obtain ⟨steps, h3, h4⟩ := (key t).2 (sure hs hone t)
    exact ⟨steps, h3, fun i hin => (h4 i hin hin).trans (dif_pos hin).symm⟩

/-- C128: in a TicTacToe match of two plain searches there is one sequence of moves that is played in all 400 games, whatever
the random numbers and the orders of the collections, and each side wins the same number of games, none or 200. -/
theorem C128_tictactoe (pf : Profile) (rnd : Rat → Rat) {p1 p2 : Player Fl} (h1 : p1.agent = .mcts) (h2 : p2.agent = .mcts) {cfg : Config}
    (hi : cfg.iterations ≠ 0) (hl : 0 < cfg.limit) :
    ∃ (moves : List Nat) (w : Nat), (w = 0 ∨ w = 200) ∧ ∀ o : Orders, o.Valid → ∀ t, ∃ t' r m,
      value (play (G := TTT.game pf) pf rnd p1 p2 cfg o 9) t = .ok r ∧
      V.Behind (G := TTT.game pf) pf rnd p1 p2 cfg 400 400 o 9 t t' r m ∧ (∀ i < 400, acts (m.steps i) = moves) ∧
      r.wins1 = w ∧ r.wins2 = w ∧ r.draws = 400 - 2 * w := by
  obtain ⟨c, hc, hall⟩ := fixed pf rnd h1 h2 hi hl 400 400
  have hpair : ∀ i j, i < 200 → 200 ≤ j → j < 400 → Tracks (marks pf) (c i) (c j) := by
    intro i j h3 h4 h5
    have h := alone_pair pf p1 p2 cfg (n := 400) (i := i) (j := j) h3 (by omega) 400 9 fun _ => 0
    have hi' := hc i (by omega) fun _ => 0
    have hj' : value (alone (G := TTT.game pf) p2 p1 cfg 400 400 9 j) (fun _ => 0) = .ok (c j) := by
      refine Eq.trans ?_ (hc j h5 fun _ => 0)
      unfold alone
      rw [chooser_agent (h1.trans h2.symm), chooser_agent (p' := p2) (p := p2) rfl]
    obtain ⟨t1, e1⟩ := value_ok.1 hi'
    obtain ⟨t2, e2⟩ := value_ok.1 hj'
    rw [e1, e2] at h
    exact h.1
  have hacts : ∀ i < 400, acts (c i) = acts (c 0) := by
    intro i h
    by_cases h3 : i < 200
    · rw [← acts_tracks (hpair i 200 h3 (by omega) (by omega)), acts_tracks (hpair 0 200 (by omega) (by omega) (by omega))]
    · exact acts_tracks (hpair 0 i (by omega) (by omega) h)
  have hkind : ∀ i < 400, kind (c i) = if i < 200 then kind (c 0) else other (kind (c 0)) := by
    intro i h
    split
    · next h3 =>
      have e1 := kind_tracks (hpair i 200 h3 (by omega) (by omega))
      have e2 := kind_tracks (hpair 0 200 (by omega) (by omega) (by omega))
      rw [← other_other (kind (c i)), ← e1, e2, other_other]
    · exact kind_tracks (hpair 0 i (by omega) (by omega) h)
  have hcount : ∀ v : Fin 3, (Finset.univ.filter fun i : Fin 400 => kind (c i) = v).card =
      (if kind (c 0) = v then 200 else 0) + (if other (kind (c 0)) = v then 200 else 0) := by
    intro v
    have e : (Finset.univ.filter fun i : Fin 400 => kind (c i) = v).card =
        (Finset.univ.filter fun i : Fin 400 => (if (i : Nat) < 200 then kind (c 0) else other (kind (c 0))) = v).card :=
      congrArg _ (Finset.filter_congr fun i _ => by rw [hkind i i.2])
    rw [e]
    generalize kind (c 0) = k
    have := count_fin 400 fun i => decide ((if i < 200 then k else other k) = v)
    simp only [decide_eq_true_eq] at this
    rw [← this]
    clear this e
    revert k v
    decide +kernel
  refine ⟨acts (c 0), if kind (c 0) = 2 then 0 else 200, ?_, fun o ho t => ?_⟩
  · split
    · exact .inl rfl
    · exact .inr rfl
  · obtain ⟨steps, ⟨t', r, m, hb, rfl⟩, h4⟩ := hall o ho t
    obtain ⟨h8, h5, h6, h7⟩ := behind_wins (V.ttt_ids pf) ho hb
    refine ⟨t', r, m, h8, hb, fun i h => by rw [h4 i h, hacts i h], ?_⟩
    have e : ∀ v : Fin 3, (Finset.univ.filter fun i : Fin 400 => kind (m.steps i) = v).card =
        (if kind (c 0) = v then 200 else 0) + (if other (kind (c 0)) = v then 200 else 0) := fun v =>
      (congrArg _ (Finset.filter_congr fun i _ => by rw [h4 i i.2])).trans (hcount v)
    rw [h5, h6, h7, e, e, e]
    generalize kind (c 0) = k
    revert k
    decide

/-- A configuration with few iterations. -/
def searchConfig (iterations : Nat) : Config := { iterations, limit := 9, pw := fun x => x }

/-- The theorem applies to a match of two plain searches. -/
example (pf : Profile) : ∃ w : Nat, (w = 0 ∨ w = 200) ∧ ∀ t, ∃ r,
    value (play (G := TTT.game pf) pf id mctsPlayer mctsPlayer (searchConfig 3) V.demoOrders 9) t = .ok r ∧ r.wins1 = w ∧ r.wins2 = w := by
  obtain ⟨_, w, h1, h2⟩ := C128_tictactoe pf id (p1 := mctsPlayer) (p2 := mctsPlayer) rfl rfl (cfg := searchConfig 3) (by decide) (by decide)
  refine ⟨w, h1, fun t => ?_⟩
  obtain ⟨t', r, m, h3, -, -, h4, h5, -⟩ := h2 V.demoOrders V.demoOrders_valid t
  exact ⟨r, h3, h4, h5⟩

/-- The moves: with three iterations the player who begins wins, with two iterations the other one. -/
example : (value (alone (G := TTT.game .debug) mctsPlayer mctsPlayer (searchConfig 3) 400 400 9 0) (fun _ => 0)).map
    (fun l => ((acts l : List Nat), kind l)) = .ok ([6, 5, 4, 3, 2], 0) := by decide +kernel
example : (value (alone (G := TTT.game .debug) mctsPlayer mctsPlayer (searchConfig 2) 400 400 9 0) (fun _ => 0)).map
    (fun l => ((acts l : List Nat), kind l)) = .ok ([7, 6, 5, 4, 3, 2], 1) := by decide +kernel

end DieE.Props.Cp
