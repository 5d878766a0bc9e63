import Verif.Backgammon.Alive
import Verif.Versus.Thrift
import Verif.Luck
import Verif.Props.Rules
import Verif.Props.Versus

/-!
# C95, C96: matches end with probability one
-/

namespace DieE.Props.Sr
open DieE DieE.Mcts DieE.Versus DieE.Props DieE.Props.V DieE.Props.S DieE.Props.A DieE.Spec DieE.BG DieE.Luck
open MeasureTheory

variable {Fl : Floats}

/-! ## C95 -/

theorem off_lt {g : State} (hv : Valid g.board) (hw : checkWinner g = none) (s : Side) : (view g.board).off s < 15 := by
  have hle := hv.men_le s 0
  have hne : (view g.board).off s ≠ 15 := by
    intro h
    unfold checkWinner checkWinWithoutPlayer at hw
    split at hw
    · cases hw
    · split at hw
      · cases hw
      · cases s <;> simp only [off_neg, off_pos] at h <;> omega
  omega

theorem can_move {g : State} (hv : Valid g.board) (hw : checkWinner g = none) (hd : ¬ deadlock (view g.board)) :
    ∃ (s : Side) (d : Int) (a : Int × Int), (1 ≤ d ∧ d ≤ 6) ∧ LegalStep s (view g.board) d a :=
  some_step hv (off_lt hv hw) hd

/-- C95: in every reachable position without a winner one of the players has a legal checker move with some die. -/
theorem C95 {pf : Profile} {g : State} (h : ReachAny pf g) (hw : checkWinner g = none) :
    ∃ (s : Side) (d : Int) (a : Int × Int), (1 ≤ d ∧ d ≤ 6) ∧ LegalStep s (view g.board) d a :=
  can_move (reachAny_ok h).board hw (C24_no_deadlock pf h)

theorem stuck_no_step {pf : Profile} {g : State} (hg : StateOK g) (h : getValidMoves pf g = .ok []) :
    ∀ d ∈ [g.roll.1, g.roll.2], ∀ a, ¬ LegalStep (mover g) (view g.board) d a :=
  (C13_empty_iff_stuck_partial pf hg h).1 rfl

theorem mover_of {g : State} {s : Side} (h : g.player = s.sgn) : mover g = s := by
  unfold mover
  cases s
  · simp only [sgn_neg] at h; rw [h]; rfl
  · simp only [sgn_pos] at h; rw [h]; rfl

/-- C95 for the code: some player finds a move with some double. -/
theorem C95_moves {pf : Profile} {g : State} (h : ReachAny pf g) (hw : checkWinner g = none) :
    ∃ (p d : Int), (p = 1 ∨ p = -1) ∧ (1 ≤ d ∧ d ≤ 6) ∧
      ∃ ms, getValidMoves pf { g with player := p, roll := (d, d) } = .ok ms ∧ ms ≠ [] := by
  obtain ⟨s, d, a, hd, hl⟩ := C95 h hw
  have hg : StateOK { g with player := s.sgn, roll := (d, d) } := ⟨(reachAny_ok h).board, by cases s <;> simp, hd, hd⟩
  refine ⟨s.sgn, d, by cases s <;> simp, hd, _, validMoves_eq pf hg, fun he => ?_⟩
  refine stuck_no_step hg ((validMoves_eq pf hg).trans (congrArg _ he)) d (by simp) a ?_
  rw [mover_of (s := s) rfl]
  exact hl

/-- The hypotheses hold at the beginning. -/
example : ReachAny .release opening ∧ checkWinner opening = none := ⟨.start ⟨by decide, by decide⟩, rfl⟩

/-- Not every die will do: in the position of `C57_endless` neither player can move with a 6. -/
example : gen .neg Stuck.a9.board 6 = [] ∧ gen .pos Stuck.a9.board 6 = [] ∧ checkWinner Stuck.a9 = none := by
  refine ⟨by decide +kernel, by decide +kernel, rfl⟩

/-! ## C96 -/

/-- The states in which a game of a match goes on. -/
def BgLive (g : State) : Prop := StateOK g ∧ ¬ deadlock (view g.board) ∧ checkWinner g = none

theorem deadlock_step {s : Side} {P : Pos} {d : Int} {a : Int × Int} (_hd : 1 ≤ d ∧ d ≤ 6) (_h : ¬ deadlock P)
    (hs : AlmostLegalStep s P d a) : ¬ deadlock (after s P a) := by
  intro hdl
  have hb := (hdl s).1
  rw [after_bar_same] at hb
  have he : a.1 = -1 := hs.barFirst (by omega)
  have hsh := AlmostLegalStep_shape hs
  have h2 : onBoard a.2 ∧ P.men s.opp a.2 ≤ 1 := by
    rcases hsh with ⟨-, h2, -, -⟩ | ⟨-, h2, -, h4⟩ | ⟨h1, -⟩
    · have := h2.1; omega
    · exact ⟨h2, h4⟩
    · have := h1.1; omega
  have hdie := hs.dieUse
  have hne : a.2 ≠ -1 := by have := h2.1.1; omega
  rw [DieRule, if_neg hne, if_pos he] at hdie
  have hhome : pip s.opp a.2 ≤ 6 := by
    have := h2.1
    unfold onBoard at this
    cases s <;> simp only [pip_neg, pip_pos, opp_neg, opp_pos] at * <;> omega
  have := (hdl s).2 a.2 h2.1 hhome
  rw [after_men_opp] at this
  split at this
  · omega
  · omega

theorem skipM_ok {pf : Profile} {g g' : State} {t t' : Tape} (h : (BG.game pf).skip g t = .ok (g', t')) :
    ∃ d, d = (((t 0 % 6 : Nat) : Int) + 1, ((t 1 % 6 : Nat) : Int) + 1) ∧ t' = skipTape 2 t ∧ skipTurn pf g d = .ok g' := by
  have h : BG.skipM pf g t = .ok (g', t') := h
  obtain ⟨d, t1, h1, h2⟩ := M.bind_ok.1 h
  obtain ⟨h3, rfl⟩ := M.lift_ok.1 h2
  obtain ⟨h4, rfl⟩ := Prod.mk.inj (Except.ok.inj (show Except.ok ((((t 0 % 6 : Nat) : Int) + 1, ((t 1 % 6 : Nat) : Int) + 1),
    fun n => t (n + 1 + 1)) = (.ok (d, t') : Res _) from h1))
  exact ⟨d, h4.symm, funext fun i => congrArg t (by omega), h3⟩

theorem bg_frugal (pf : Profile) : Frugal (BG.game pf) 2 where
  apply := by
    intro s a
    have hroll : Cost 2 BG.rollDice :=
      cost_bind (c := 1) (d := 1) (cost_bind (d := 0) cost_draw fun _ => cost_pure _ _) fun _ =>
        cost_bind (c := 1) (d := 0) (cost_bind (d := 0) cost_draw fun _ => cost_pure _ _) fun _ => cost_pure _ _
    show Cost 2 (BG.applyM pf s a)
    unfold BG.applyM
    refine cost_bind (d := 0) ?_ fun _ => cost_lift _ _
    split
    · exact cost_pure _ _
    · exact hroll
  skip := by
    intro s t s' t' h
    obtain ⟨-, -, h2, -⟩ := skipM_ok h
    exact ⟨2, by decide, le_refl _, h2⟩

theorem bg_live_closed (pf : Profile) : Closed (BG.game pf) BgLive where
  skip := by
    intro s t s' t' hR h
    obtain ⟨d, -, -, h1⟩ := skipM_ok h
    have hb := skipTurn_board hR.1 h1
    refine ⟨(closed_of_safe (bg_safe pf)).skip s t s' t' hR.1 h, ?_, ?_⟩
    · rw [hb]
      exact hR.2.1
    · have := hR.2.2
      unfold checkWinner at this ⊢
      rw [hb]
      exact this
  move := by
    intro s ms a s' hR hm ha hp hw
    refine ⟨(bg_safe pf).closed s ms a s' hR.1 hm ha hp, ?_, hw⟩
    obtain ⟨t, t', h⟩ := hp
    have h : BG.applyM pf s a t = .ok (s', t') := h
    obtain ⟨d, t1, -, h2⟩ := M.bind_ok.1 h
    have h3 := (M.lift_ok.1 h2).1
    rw [applyMove_view hR.1 hm ha h3]
    exact uses_invariant (I := fun P => ¬ deadlock P) (fun P d a hd h hs => deadlock_step hd h hs)
      (genPlay_uses (returned hR.1 hm ha).2 hR.1.board (dice_ok hR.1)) (dice_ok hR.1) hR.2.1

theorem bg_live_runs (pf : Profile) : Runs (BG.game pf) BgLive where
  apply := fun s ms a hR hm ha t => (bg_safe pf).apply s ms a hR.1 hm ha t
  skip := fun s hR t => (runs_of_safe (bg_safe pf)).skip s hR.1 t

theorem bg_live_begins (pf : Profile) : Begins (BG.game pf) BgLive := by
  intro n i u
  obtain ⟨s, u', h1, h2⟩ := bg_begins pf n i u
  obtain ⟨d, u'', h3, -⟩ := bg_init pf n i u
  rw [h1] at h3
  obtain ⟨h4, -⟩ := Prod.mk.inj (Except.ok.inj h3)
  refine ⟨s, u', h1, h2, ?_, ?_⟩
  · rw [h4]
    intro hd
    exact absurd (show 0 < (view initialBoard).bar .neg from (hd .neg).1) (by decide)
  · rw [h4]
    rfl

theorem bg_no_empty (pf : Profile) : ∀ (s : State) (ms : List Actions), (BG.game pf).moves s = .ok ms → BgLive s →
    (BG.game pf).emptyMove ∉ ms := by
  intro s ms hm hR he
  exact (returned hR.1 hm he).1 rfl

/-- Nobody passes forever on a rich tape. -/
theorem no_passing {pf : Profile} {t : Tape} (ht : Rich t) {limit B : Nat} {s : Nat → State} {p : Nat → Nat}
    (h : ∀ k, limit ≤ k + 1 → BgLive (s k) ∧ getValidMoves pf (s k) = .ok [] ∧ p k < p (k + 1) ∧ p (k + 1) ≤ p k + B ∧
      ∃ q u, p k ≤ q ∧ q ≤ p k + B ∧ (BG.game pf).skip (s k) (skipTape q t) = .ok (s (k + 1), u)) : False := by
  have hboard : ∀ k, (s (limit + k)).board = (s limit).board := by
    intro k
    induction k with
    | zero => rfl
    | succ k ih =>
      obtain ⟨hR, -, -, -, q, u, -, -, hs⟩ := h (limit + k) (by omega)
      obtain ⟨d, -, -, h1⟩ := skipM_ok hs
      exact (skipTurn_board hR.1 h1).trans ih
  obtain ⟨σ, d, a, hd, hl⟩ := can_move (h limit (by omega)).1.1.board (h limit (by omega)).1.2.2 (h limit (by omega)).1.2.1
  obtain ⟨j, hj, rfl⟩ : ∃ j : Nat, j < 6 ∧ d = (j : Int) + 1 := ⟨(d - 1).toNat, by omega, by omega⟩
  obtain ⟨b, hb, hblock⟩ := ht j hj (3 * B + 2) (p limit)
  have hgrow : ∀ k, p limit + k ≤ p (limit + k) := by
    intro k
    induction k with
    | zero => exact le_refl _
    | succ k ih =>
      have := (h (limit + k) (by omega)).2.2.1
      show p limit + (k + 1) ≤ p (limit + k + 1)
      omega
  have hex : ∃ k, b ≤ p (limit + k) := ⟨b, by have := hgrow b; omega⟩
  obtain ⟨k, hk1, hk2⟩ : ∃ k, b ≤ p (limit + k) ∧ p (limit + k) ≤ b + B := by
    refine ⟨Nat.find hex, Nat.find_spec hex, ?_⟩
    cases hf : Nat.find hex with
    | zero =>
      show p limit ≤ b + B
      omega
    | succ k' =>
      have h1 : ¬ b ≤ p (limit + k') := Nat.find_min hex (by omega)
      have h2 := (h (limit + k') (by omega)).2.2.2.1
      show p (limit + k' + 1) ≤ b + B
      omega
  -- after a pass in the block the player has the roll `(j + 1, j + 1)` and no move
  have key : ∀ k', limit ≤ k' → ∀ q u, (BG.game pf).skip (s k') (skipTape q t) = .ok (s (k' + 1), u) → b ≤ q → q + 1 < b + (3 * B + 2) →
      (∀ a, ¬ LegalStep (mover (s (k' + 1))) (view (s limit).board) ((j : Int) + 1) a) ∧ (s (k' + 1)).player = - (s k').player := by
    intro k' hk' q u hs hq1 hq2
    obtain ⟨d, hd', -, h1⟩ := skipM_ok hs
    have e0 : skipTape q t 0 % 6 = j := by
      have := hblock (q - b) (by omega)
      rw [← this]
      exact congrArg (fun x => t x % 6) (by omega)
    have e1 : skipTape q t 1 % 6 = j := by
      have := hblock (q + 1 - b) (by omega)
      rw [← this]
      exact congrArg (fun x => t x % 6) (by omega)
    rw [e0, e1] at hd'
    have hR := (h k' (by omega)).1
    have hR1 := h (k' + 1) (by omega)
    have h2 := h1
    rw [skipTurn_eq pf hR.1, Except.ok.injEq] at h2
    have hroll : (s (k' + 1)).roll.1 = (j : Int) + 1 := by rw [← h2, hd']
    have hplayer : (s (k' + 1)).player = - (s k').player := by rw [← h2]
    refine ⟨fun a => ?_, hplayer⟩
    have := stuck_no_step hR1.1.1 hR1.2.1 ((j : Int) + 1) (by rw [hroll]; simp) a
    have hbd := hboard (k' + 1 - limit)
    rw [show limit + (k' + 1 - limit) = k' + 1 by omega] at hbd
    rwa [hbd] at this
  obtain ⟨hR0, -, -, hp0, q0, u0, ha0, hb0, hs0⟩ := h (limit + k) (by omega)
  obtain ⟨hR1, -, -, -, q1, u1, ha1, hb1, hs1⟩ := h (limit + k + 1) (by omega)
  have hp1 := (h (limit + k) (by omega)).2.2.1
  obtain ⟨n0, pl0⟩ := key (limit + k) (by omega) q0 u0 hs0 (by omega) (by omega)
  obtain ⟨n1, pl1⟩ := key (limit + k + 1) (by omega) q1 u1 hs1 (by omega) (by omega)
  have hside : σ = mover (s (limit + k + 1)) ∨ σ = mover (s (limit + k + 1 + 1)) := by
    rcases hR1.1.player with e | e
    · have e' : (s (limit + k + 1 + 1)).player = 1 := by rw [pl1, e]; rfl
      unfold mover
      rw [e, e']
      cases σ <;> simp
    · have e' : (s (limit + k + 1 + 1)).player = -1 := by rw [pl1, e]
      unfold mover
      rw [e, e']
      cases σ <;> simp
  rcases hside with e | e
  · rw [e] at hl
    exact n0 a hl
  · rw [e] at hl
    exact n1 a hl

theorem bg_init_cost (pf : Profile) (n i : Nat) : Cost 4 (initState (BG.game pf) n i) := by
  have hroll : Cost 2 BG.rollDice :=
    cost_bind (c := 1) (d := 1) (cost_bind (d := 0) cost_draw fun _ => cost_pure _ _) fun _ =>
      cost_bind (c := 1) (d := 0) (cost_bind (d := 0) cost_draw fun _ => cost_pure _ _) fun _ => cost_pure _ _
  unfold initState
  refine cost_bind (c := 2) (d := 2) ?_ fun _ => cost_bind (d := 0) ?_ fun _ => cost_pure _ _
  · split
    · exact cost_bind (d := 0) hroll fun _ => cost_lift _ _
    · exact cost_pure _ _
  · exact cost_bind (d := 0) hroll fun _ => cost_pure _ _

/-- On a rich tape every match of able players who take a bounded number of numbers for a move ends. -/
theorem rich_ends {pf : Profile} {d : Nat} {a1 a2 : Agent} {acts1 acts2 : Acts (BG.game pf)} (hA1 : Able BgLive acts1)
    (hA2 : Able BgLive acts2) (hT1 : Thrifty BgLive d acts1) (hT2 : Thrifty BgLive d acts2) {n limit : Nat} {order : Nat → List Nat → List Nat}
    (ho : ∀ k l, (order k l).Perm l) {t : Tape} (ht : Rich t) :
    ∃ f r, playRun a1 a2 acts1 acts2 n limit order f t = .ok r := by
  by_contra hn
  push Not at hn
  obtain ⟨s, p, h⟩ := endless_passes (bg_ids pf) (bg_live_closed pf) (bg_live_runs pf) (bg_live_begins pf) (bg_no_empty pf) (bg_frugal pf)
    (bg_init_cost pf n) hA1 hA2 hT1 hT2 ho hn
  exact no_passing (pf := pf) ht h

theorem few_of_coded {G : Game} {R : G.S → Prop} (h : Coded G R) : Few G R G.actionSpace := by
  intro s ms hR hm
  have hinj : ∀ a ∈ ms, ∀ b ∈ ms, codeOf s a = codeOf s b → a = b := by
    intro a ha b hb e
    obtain ⟨ca, h1, -, h2⟩ := h.code s ms a hR hm ha
    obtain ⟨cb, h3, -, h4⟩ := h.code s ms b hR hm hb
    unfold codeOf at e
    rw [h1, h3] at e
    simp only at e
    rw [← e] at h4
    exact Except.ok.inj (h2.symm.trans h4)
  have hnd : (ms.map (codeOf s)).Nodup := by
    rw [List.nodup_map_iff_inj_on (h.nodup s ms hR hm)]
    exact hinj
  have hsub : ms.map (codeOf s) ⊆ List.range G.actionSpace := by
    intro c hc
    obtain ⟨a, ha, rfl⟩ := List.mem_map.1 hc
    obtain ⟨ca, h1, h2, -⟩ := h.code s ms a hR hm ha
    unfold codeOf
    rw [h1]
    exact List.mem_range.2 h2
  have := (hnd.subperm hsub).length_le
  rwa [List.length_map, List.length_range] at this

theorem bg_thrifty {pf : Profile} {cfg : Config} {pl : Player Fl} (h : Ready 1352 false cfg pl) {order : Nat → Nat → List Nat}
    (ho : ∀ k n, (order k n).Perm (List.range n)) :
    Thrifty BgLive (2 + 2 * 1352 * (1 + cfg.iterations)) (fun k => getActions (G := BG.game pf) pl cfg (order k)) := by
  have sub : ∀ {d : Nat} {acts : Acts (BG.game pf)}, Thrifty (fun s : BG.State => StateOK s) d acts → Thrifty BgLive d acts :=
    fun h k ss hR => h k ss fun s hs => (hR s hs).1
  rcases h with h | ⟨h1, -, -, -⟩ | ⟨h1, -⟩
  · exact (thrifty_random h cfg order).mono (by omega)
  · exact sub (thrifty_model (bg_safe pf) (few_of_coded (bg_coded pf)) (bg_frugal pf) h1 cfg ho)
  · cases h1

theorem result_ok {pf : Profile} (rnd : Rat → Rat) {p1 p2 : Player Fl} {cfg : Config} {n limit : Nat} {o : Orders} (ho : o.Valid)
    {f : Nat} {t t' : Tape} {m : Match (BG.game pf)} (h : playRun p1.agent p2.agent (fun k => getActions p1 cfg (o.set1 k))
      (fun k => getActions p2 cfg (o.set2 k)) n limit o.map f t = .ok (m, t')) :
    ∃ r, playN (G := BG.game pf) pf rnd p1 p2 cfg n limit o f t = .ok (r, t') := by
  obtain ⟨init, k, D, -, h4, h5, -⟩ := playRun_inv (bg_ids pf) (closed_true _) (answers_picks ho.set1 _) (answers_picks ho.set2 _)
    (fun _ _ _ _ _ => trivial) ho.map h
  obtain ⟨r, h6, -⟩ := result_of_inv h4 h5 pf rnd
  exact ⟨r, M.bind_ok.2 ⟨m, t', h, M.lift_ok.2 ⟨h6, rfl⟩⟩⟩

/-- A match ends if the dice show all numbers sufficiently often in a row, whatever the players choose. -/
theorem C96_rich (pf : Profile) (rnd : Rat → Rat) {p1 p2 : Player Fl} {cfg : Config} (h1 : Ready 1352 false cfg p1)
    (h2 : Ready 1352 false cfg p2) (n limit : Nat) {o : Orders} (ho : o.Valid) {t : Tape} (ht : Rich t) :
    ∃ f r t', playN (G := BG.game pf) pf rnd p1 p2 cfg n limit o f t = .ok (r, t') := by
  obtain ⟨f, ⟨m, t'⟩, h⟩ := rich_ends (pf := pf) (a1 := p1.agent) (a2 := p2.agent) (n := n) (limit := limit)
    (able_sub (fun s hs => hs.1) (bg_ready h1 ho.set1)) (able_sub (fun s hs => hs.1) (bg_ready h2 ho.set2))
    (bg_thrifty h1 ho.set1) (bg_thrifty h2 ho.set2) ho.map ht
  obtain ⟨r, h3⟩ := result_ok rnd ho h
  exact ⟨f, r, t', h3⟩

/-- C96: a Backgammon match of random and network players ends with probability one. -/
theorem C96 (pf : Profile) (rnd : Rat → Rat) {p1 p2 : Player Fl} {cfg : Config} (h1 : Ready 1352 false cfg p1)
    (h2 : Ready 1352 false cfg p2) {o : Orders} (ho : o.Valid) {μ : Measure Tape} [IsProbabilityMeasure μ] {ε : ENNReal} (hε : ε ≠ 0)
    (hμ : Lively ε μ) : ∀ᵐ t ∂μ, ∃ f r t', play (G := BG.game pf) pf rnd p1 p2 cfg o f t = .ok (r, t') := by
  filter_upwards [ae_rich hε hμ] with t ht
  exact C96_rich pf rnd h1 h2 400 400 ho ht

theorem playLoop_mono {G : Game} {a1 a2 : Agent} {acts1 acts2 : Acts G} {n limit : Nat} {order : Nat → List Nat → List Nat} (f : Nat)
    {k : Nat} {m : Match G} {t : Tape} {r : Match G × Tape} (h : playLoop a1 a2 acts1 acts2 n limit order f k m t = .ok r) :
    playLoop a1 a2 acts1 acts2 n limit order (f + 1) k m t = .ok r := by
  induction f generalizing k m t with
  | zero =>
    unfold playLoop at h ⊢
    by_cases he : (m.keys n).isEmpty
    · rw [if_pos he] at h ⊢
      exact h
    · rw [if_neg he] at h
      cases h
  | succ f ih =>
    unfold playLoop at h ⊢
    by_cases he : (m.keys n).isEmpty
    · rw [if_pos he] at h ⊢
      exact h
    · rw [if_neg he] at h ⊢
      obtain ⟨m1, t1, e1, e2⟩ := M.bind_ok.1 h
      exact (M.bind_eq e1).trans (ih e2)

theorem playRun_mono {G : Game} {a1 a2 : Agent} {acts1 acts2 : Acts G} {n limit : Nat} {order : Nat → List Nat → List Nat} {f : Nat}
    {t : Tape} {r : Match G × Tape} (h : playRun a1 a2 acts1 acts2 n limit order f t = .ok r) :
    playRun a1 a2 acts1 acts2 n limit order (f + 1) t = .ok r := by
  unfold playRun at h ⊢
  obtain ⟨g, t2, e3, e4⟩ := M.bind_ok.1 h
  exact (M.bind_eq e3).trans (playLoop_mono f e4)

theorem playN_mono {G : Game} {pf : Profile} {rnd : Rat → Rat} {p1 p2 : Player Fl} {cfg : Config} {n limit : Nat} {o : Orders} {f : Nat}
    {t : Tape} {r : PlayResult G × Tape} (h : playN pf rnd p1 p2 cfg n limit o f t = .ok r) :
    playN pf rnd p1 p2 cfg n limit o (f + 1) t = .ok r := by
  unfold playN at h ⊢
  obtain ⟨m, t1, e1, e2⟩ := M.bind_ok.1 h
  exact (M.bind_eq (playRun_mono e1)).trans e2

/-- The tapes on which the match is over after at most `f` rounds. -/
def EndsBy (pf : Profile) (rnd : Rat → Rat) (p1 p2 : Player Fl) (cfg : Config) (o : Orders) (f : Nat) : Set Tape :=
  {t | ∃ r t', play (G := BG.game pf) pf rnd p1 p2 cfg o f t = .ok (r, t')}

/-- C96: the probability that a match is over after `f` rounds tends to one. -/
theorem C96_limit (pf : Profile) (rnd : Rat → Rat) {p1 p2 : Player Fl} {cfg : Config} (h1 : Ready 1352 false cfg p1)
    (h2 : Ready 1352 false cfg p2) {o : Orders} (ho : o.Valid) {μ : Measure Tape} [IsProbabilityMeasure μ] {ε : ENNReal} (hε : ε ≠ 0)
    (hμ : Lively ε μ) : Filter.Tendsto (fun f => μ (EndsBy pf rnd p1 p2 cfg o f)) Filter.atTop (nhds 1) := by
  have hmono : Monotone (EndsBy pf rnd p1 p2 cfg o) := by
    refine monotone_nat_of_le_succ fun f t ht => ?_
    obtain ⟨r, t', h⟩ := ht
    exact ⟨r, t', playN_mono h⟩
  have hlim := tendsto_measure_iUnion_atTop (μ := μ) hmono
  have hone : μ (⋃ f, EndsBy pf rnd p1 p2 cfg o f) = 1 := by
    have h := C96 pf rnd h1 h2 ho hε hμ
    refine (measure_eq_measure_of_null_sdiff (Set.subset_univ _) ?_).trans measure_univ
    refine measure_mono_null ?_ (ae_iff.1 h)
    rintro t ⟨-, ht⟩ hc
    exact ht (Set.mem_iUnion.2 hc)
  rwa [hone] at hlim

/-- A fair die, numbered from 0. -/
noncomputable def fairDie : Measure Nat := (6 : ENNReal)⁻¹ • ∑ i ∈ Finset.range 6, Measure.dirac i

instance : IsProbabilityMeasure fairDie where
  measure_univ := by
    unfold fairDie
    simp only [Measure.smul_apply, Measure.coe_finsetSum, Finset.sum_apply, measure_univ, Finset.sum_const, Finset.card_range, smul_eq_mul,
      nsmul_eq_mul, mul_one]
    exact ENNReal.inv_mul_cancel (by norm_num) (by norm_num)

theorem fairDie_residue {j : Nat} (hj : j < 6) : (6 : ENNReal)⁻¹ ≤ fairDie {x | x % 6 = j} := by
  unfold fairDie
  simp only [Measure.smul_apply, Measure.coe_finsetSum, Finset.sum_apply, smul_eq_mul]
  refine le_mul_of_one_le_right' ?_
  refine le_trans (le_of_eq ?_) (Finset.single_le_sum (f := fun i => Measure.dirac i {x | x % 6 = j}) (fun _ _ => bot_le)
    (Finset.mem_range.2 hj))
  rw [Measure.dirac_apply' _ .of_discrete, Set.indicator_of_mem (show j ∈ {x | x % 6 = j} from Nat.mod_eq_of_lt hj)]
  rfl

/-- C96 for independent draws: the match of C57_endless, which does not end if all dice show 6, ends with probability one. -/
theorem C96_fair (pf : Profile) (rnd : Rat → Rat) {p1 p2 : Player Fl} {cfg : Config} (h1 : Ready 1352 false cfg p1)
    (h2 : Ready 1352 false cfg p2) {o : Orders} (ho : o.Valid) :
    ∀ᵐ t ∂(Measure.infinitePi (fun _ : Nat => fairDie) : Measure Tape),
      ∃ f r t', play (G := BG.game pf) pf rnd p1 p2 cfg o f t = .ok (r, t') :=
  C96 pf rnd h1 h2 ho (ε := (6 : ENNReal)⁻¹) (by simp) (lively_iid fairDie fun _ hj => fairDie_residue hj)

/-- The hypotheses hold for the random player. -/
example : ∀ᵐ t ∂(Measure.infinitePi (fun _ : Nat => fairDie) : Measure Tape),
    ∃ f r t', play (G := BG.game .release) .release (fun x => x) randomPlayer randomPlayer demoConfig demoOrders f t = .ok (r, t') :=
  C96_fair _ _ (.inl rfl) (.inl rfl) demoOrders_valid

/-- Not for all tapes: with sixes only the match above does not end. -/
example : ¬ Rich Stuck.sixes := by
  intro h
  obtain ⟨q, -, h1⟩ := h 0 (by decide) 1 0
  exact absurd (show 5 % 6 = 0 from h1 0 (by decide)) (by decide)

end DieE.Props.Sr
