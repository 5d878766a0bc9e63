import Verif.Versus.Progress

/-! # Matches: facts about the two games -/

namespace DieE.Props.V
open DieE DieE.Mcts DieE.Train DieE.Versus DieE.Props.A DieE.Props.S

variable {G : Game} {Fl : Floats}

/-! ## The two games -/

theorem res_bind {α β : Type} {x : Res α} {f : α → Res β} {b : β} : (x >>= f) = .ok b ↔ ∃ a, x = .ok a ∧ f a = .ok b := by
  cases x with
  | error e => exact ⟨fun h => (nomatch h), fun ⟨_, h, _⟩ => (nomatch h)⟩
  | ok a => exact ⟨fun h => ⟨a, rfl, h⟩, fun ⟨_, h1, h2⟩ => Except.ok.inj h1 ▸ h2⟩

theorem ttt_ids (pf : Profile) : Ids (TTT.game pf) where
  apply := by
    intro s a t s' t' h
    have h := (M.lift_ok.1 (show M.lift (TTT.applyMove pf s a) t = .ok (s', t') from h)).1
    unfold TTT.applyMove at h
    split at h
    · obtain ⟨p, -, h1⟩ := res_bind.1 h
      obtain rfl := Except.ok.inj h1
      rfl
    · cases h
  skip := by
    intro s t s' t' h
    have h := (M.lift_ok.1 (show M.lift (TTT.skipTurn pf s) t = .ok (s', t') from h)).1
    obtain ⟨p, -, h1⟩ := res_bind.1 h
    obtain rfl := Except.ok.inj h1
    rfl
  setId := fun _ _ => rfl

theorem bg_ids (pf : Profile) : Ids (BG.game pf) where
  apply := by
    intro s a t s' t' h
    have h : BG.applyM pf s a t = .ok (s', t') := h
    obtain ⟨d, t1, -, h2⟩ := M.bind_ok.1 h
    have h2 := (M.lift_ok.1 h2).1
    obtain ⟨b, -, h3⟩ := res_bind.1 h2
    simp only at h3
    split at h3
    · obtain rfl := Except.ok.inj h3
      rfl
    · obtain ⟨p, -, h4⟩ := res_bind.1 h3
      obtain rfl := Except.ok.inj h4
      rfl
  skip := by
    intro s t s' t' h
    have h : BG.skipM pf s t = .ok (s', t') := h
    obtain ⟨d, t1, -, h2⟩ := M.bind_ok.1 h
    have h2 := (M.lift_ok.1 h2).1
    obtain ⟨p, -, h4⟩ := res_bind.1 h2
    obtain rfl := Except.ok.inj h4
    rfl
  setId := fun _ _ => rfl

/-- Every set of states is closed if it is all of them. -/
theorem closed_true (G : Game) : Closed G (fun _ => True) := ⟨fun _ _ _ _ _ _ => trivial, fun _ _ _ _ _ _ _ _ _ => trivial⟩

theorem closed_of_safe {R : G.S → Prop} (h : Safe G R) : Closed G R where
  skip := by
    intro s t s' t' hR hs
    obtain ⟨s1, t1, h1, h2⟩ := h.skip s hR t
    rw [hs] at h1
    obtain ⟨rfl, -⟩ := Prod.mk.inj (Except.ok.inj h1)
    exact h2
  move := fun s ms a s' hR hm ha hp _ => h.closed s ms a s' hR hm ha hp

theorem runs_of_safe {R : G.S → Prop} (h : Safe G R) : Runs G R where
  apply := h.apply
  skip := fun s hR t => by
    obtain ⟨s', t', h1, -⟩ := h.skip s hR t
    exact ⟨s', t', h1⟩

/-- Initial TicTacToe states. -/
theorem ttt_init (pf : Profile) (n i : Nat) (u : Tape) :
    initState (TTT.game pf) n i u = .ok ({ player := if i < n / 2 then -1 else 1, board := TTT.new.board, id := i }, u) := by
  by_cases h : i < n / 2
  · have : ¬ i ≥ n / 2 := by omega
    unfold initState
    rw [if_neg this, if_pos h]
    rfl
  · have : i ≥ n / 2 := by omega
    unfold initState
    rw [if_pos this, if_neg h]
    rfl

theorem rollDice_ok (t : Tape) : ∃ d t', BG.rollDice t = .ok (d, t') ∧ Spec.DiceInRange d := by
  have hdie : ∀ t : Tape, ∃ d t', M.die t = .ok (d, t') ∧ 1 ≤ d ∧ d ≤ 6 := by
    intro t
    exact ⟨_, _, rfl, by omega, by omega⟩
  obtain ⟨a, t1, h1, h2, h3⟩ := hdie t
  obtain ⟨b, t2, h4, h5, h6⟩ := hdie t1
  exact ⟨(a, b), t2, M.bind_ok.2 ⟨a, t1, h1, M.bind_ok.2 ⟨b, t2, h4, rfl⟩⟩, by
    unfold Spec.DiceInRange; simp; omega⟩

/-- Initial Backgammon states. -/
theorem bg_init (pf : Profile) (n i : Nat) (u : Tape) :
    ∃ d u', initState (BG.game pf) n i u = .ok
      ({ BG.new with player := (if i < n / 2 then -1 else 1 : Int), roll := d, id := i }, u') ∧ Spec.DiceInRange d := by
  have hskip : ∀ d : Int × Int, BG.skipTurn pf BG.new d = .ok { BG.new with player := 1, roll := d } := by
    intro d
    cases pf <;> rfl
  by_cases h : i < n / 2
  · have hn : ¬ i ≥ n / 2 := by omega
    obtain ⟨d, u', h1, h2⟩ := rollDice_ok u
    refine ⟨d, u', ?_, h2⟩
    unfold initState
    rw [if_neg hn, if_pos h]
    refine (M.bind_eq (show (pure BG.new : M BG.State) u = .ok (BG.new, u) from rfl)).trans ?_
    refine (M.bind_eq (a := BG.rollWith BG.new d) (t' := u') ?_).trans rfl
    exact (M.bind_eq h1).trans rfl
  · have hn : i ≥ n / 2 := by omega
    obtain ⟨d0, u0, h0, -⟩ := rollDice_ok u
    obtain ⟨d, u', h1, h2⟩ := rollDice_ok u0
    refine ⟨d, u', ?_, h2⟩
    unfold initState
    rw [if_pos hn, if_neg h]
    refine (M.bind_eq (a := { BG.new with player := 1, roll := d0 }) (t' := u0) ?_).trans ?_
    · exact M.bind_ok.2 ⟨d0, u0, h0, M.lift_ok.2 ⟨hskip d0, rfl⟩⟩
    · refine (M.bind_eq (a := BG.rollWith { BG.new with player := 1, roll := d0 } d) (t' := u') ?_).trans rfl
      exact (M.bind_eq h1).trans rfl

/-- Undecided TicTacToe positions. -/
def TttLive (s : TTT.State) : Prop := (s.player = 1 ∨ s.player = -1) ∧ TTT.checkWinner s = none

theorem ttt_live_closed (pf : Profile) : Closed (TTT.game pf) TttLive where
  skip := by
    intro s t s' t' hR h
    refine ⟨(closed_of_safe (ttt_safe pf)).skip s t s' t' hR.1 h, ?_⟩
    have h := (M.lift_ok.1 (show M.lift (TTT.skipTurn pf s) t = .ok (s', t') from h)).1
    obtain ⟨p, -, h1⟩ := res_bind.1 h
    obtain rfl := Except.ok.inj h1
    exact hR.2
  move := fun s ms a s' hR hm ha hp hw => ⟨(ttt_safe pf).closed s ms a s' hR.1 hm ha hp, hw⟩

theorem ttt_live_runs (pf : Profile) : Runs (TTT.game pf) TttLive where
  apply := fun s ms a hR hm ha t => (ttt_safe pf).apply s ms a hR.1 hm ha t
  skip := fun s hR t => (runs_of_safe (ttt_safe pf)).skip s hR.1 t

theorem ttt_live_begins (pf : Profile) : Begins (TTT.game pf) TttLive := by
  intro n i u
  refine ⟨_, _, ttt_init pf n i u, ?_, ?_⟩
  · by_cases h : i < n / 2
    · simp [h]
    · simp [h]
  · show TTT.checkWinner _ = none
    unfold TTT.checkWinner TTT.comboWinner
    exact (show TTT.checkWinner TTT.new = none by decide)

theorem bg_begins (pf : Profile) : Begins (BG.game pf) (fun s : BG.State => Spec.StateOK s) := by
  intro n i u
  obtain ⟨d, u', h1, h2⟩ := bg_init pf n i u
  refine ⟨_, u', h1, ⟨BG.initial_valid, ?_, h2.1, h2.2⟩⟩
  by_cases h : i < n / 2
  · exact .inl (by simp [h])
  · exact .inr (by simp [h])

theorem able_sub {R R' : G.S → Prop} (h : ∀ s, R s → R' s) {acts : Acts G} (ha : Able R' acts) : Able R acts :=
  ⟨fun k ss t hR => ha.total k ss t fun s hs => h s (hR s hs), fun k ss t as t' hR => ha.sound k ss t as t' fun s hs => h s (hR s hs)⟩

end DieE.Props.V
