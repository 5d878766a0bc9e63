import Verif.Train.SelfPlayLoop
import Verif.Props.TicTacToe

/-! # C45–C47, C64: self-play -/

namespace DieE.Props.L
open DieE DieE.Mcts DieE.Train DieE.Props.S DieE.Props.A

variable {G : Game} {Fl : Floats}

/-! ## Sample data -/

/-- Hash maps which keep their order. -/
def demoOrders (G : Game) : Orders G := { map := fun _ l => l, set := fun _ n => List.range n }

theorem demoOrders_valid (G : Game) : (demoOrders G).Valid := ⟨fun _ l => List.Perm.refl l, fun _ _ => List.Perm.refl _⟩

/-- One iteration per search, temperature 1. -/
def demoConfig (limit : Nat) : SelfPlayConfig := { iterations := 1, limit := limit, pw := id }

theorem demoConfig_ok (limit : Nat) : PwWarm 9 (demoConfig limit).pw ∧ (demoConfig limit).iterations ≠ 0 :=
  ⟨⟨⟨rfl, fun _ h => h⟩, fun _ h _ => h⟩, Nat.one_ne_zero⟩

/-- Self-play of `n` TicTacToe games with the sample network. -/
def demoSelfPlay (n limit : Nat) : Res (SelfPlay (TTT.game .debug) × Tape) :=
  selfPlayRun demoNet (demoConfig limit) (demoOrders _) n (limit + 1) demoTape

/-! ## The two games start safely -/

theorem ttt_starts (pf : Profile) : Starts (TTT.game pf) (fun s : TTT.State => s.player = 1 ∨ s.player = -1) := by
  intro t
  exact ⟨TTT.new, t, rfl, .inr rfl⟩

theorem bg_start (pf : Profile) (t : Tape) :
    ∃ (d : Int × Int) (t' : Tape), start (BG.game pf) t = .ok (BG.rollWith BG.new d, t') ∧ Spec.DiceInRange d := by
  have hroll : ∃ d t', BG.rollDice t = .ok (d, t') ∧ Spec.DiceInRange d := by
    have hdie : ∀ t : Tape, ∃ d t', M.die t = .ok (d, t') ∧ 1 ≤ d ∧ d ≤ 6 := by
      intro t
      exact ⟨_, _, rfl, by omega, by omega⟩
    obtain ⟨a, t1, h1, h2, h3⟩ := hdie t
    obtain ⟨b, t2, h4, h5, h6⟩ := hdie t1
    exact ⟨(a, b), t2, M.bind_ok.2 ⟨a, t1, h1, M.bind_ok.2 ⟨b, t2, h4, rfl⟩⟩, by
      unfold Spec.DiceInRange; simp; omega⟩
  obtain ⟨d, t', h1, h2⟩ := hroll
  refine ⟨d, t', ?_, h2⟩
  unfold start
  show (if (false : Bool) then pure BG.new else (do
    let d ← BG.rollDice
    pure (BG.rollWith BG.new d)) : M BG.State) t = _
  rw [if_neg (by decide)]
  exact (M.bind_eq h1).trans rfl

theorem bg_starts (pf : Profile) : Starts (BG.game pf) (fun s : BG.State => Spec.StateOK s) := by
  intro t
  obtain ⟨d, t', h1, h2⟩ := bg_start pf t
  exact ⟨_, t', h1, BG.start_ok h2⟩

/-! ## C64: the loop ends and does not panic -/

/-- C64: for a network accepted by the noise distribution, at least one search iteration and a positive temperature,
`self_play_parallel` returns after at most `simulate_round_limit + 1` passes, for any number of games, round limit, order
of the hash maps and dice.  For TicTacToe, ... -/
theorem C64_tictactoe (pf : Profile) {net : Net Fl} (ha : net.alphaOk = true) (cfg : SelfPlayConfig) (hpw : PwOK cfg.pw)
    (hi : cfg.iterations ≠ 0) {o : Orders (TTT.game pf)} (ho : o.Valid) (n : Nat) (t : Tape) :
    ∃ mem t', selfPlayParallel net cfg o n (cfg.limit + 1) t = .ok (mem, t') := by
  obtain ⟨sp, t', init, D, h, -⟩ := selfPlayRun_spec (ttt_safeNet pf) (ttt_coded pf) (ttt_starts pf) ha cfg hpw hi ho n
    (cfg.limit + 1) (Nat.le_refl _) t
  exact ⟨sp.all, t', M.bind_ok.2 ⟨sp, t', h, rfl⟩⟩

/-- C64: ... and for Backgammon. -/
theorem C64_backgammon (pf : Profile) {net : Net Fl} (ha : net.alphaOk = true) (cfg : SelfPlayConfig) (hpw : PwOK cfg.pw)
    (hi : cfg.iterations ≠ 0) {o : Orders (BG.game pf)} (ho : o.Valid) (n : Nat) (t : Tape) :
    ∃ mem t', selfPlayParallel net cfg o n (cfg.limit + 1) t = .ok (mem, t') := by
  obtain ⟨sp, t', init, D, h, -⟩ := selfPlayRun_spec (bg_safeNet pf) (bg_coded pf) (bg_starts pf) ha cfg hpw hi ho n
    (cfg.limit + 1) (Nat.le_refl _) t
  exact ⟨sp.all, t', M.bind_ok.2 ⟨sp, t', h, rfl⟩⟩

/-- C64: every game is played by the rules from a new position, no turn follows one that decides the game except that
a game which reaches the round limit is played for one turn more, and every game ends in one of these ways. -/
theorem C64_games {R : G.S → Prop} (hs : SafeNet G R) (hc : Coded G R) (hst : Starts G R) {net : Net Fl}
    (ha : net.alphaOk = true) (cfg : SelfPlayConfig) (hpw : PwOK cfg.pw) (hit : cfg.iterations ≠ 0) {o : Orders G}
    (ho : o.Valid) {n f : Nat} (hf : cfg.limit + 1 ≤ f) {t t' : Tape} {sp : SelfPlay G}
    (h : selfPlayRun net cfg o n f t = .ok (sp, t')) (i : Nat) (hi : i < n) :
    (∃ s0 s t1 t2, start G t1 = .ok (s0, t2) ∧ Log G cfg.pw s0 (sp.turns i) s) ∧ Open (sp.turns i) ∧
      ((sp.turns i).length ≤ cfg.limit ∧ decided (sp.turns i) ≠ none ∨ (sp.turns i).length = cfg.limit + 1) := by
  obtain ⟨sp', t'', init, D, h', -, -, -, h1⟩ := selfPlayRun_spec hs hc hst ha cfg hpw hit ho n f hf t
  rw [h] at h'
  injection h' with h'
  simp only [Prod.mk.injEq] at h'
  obtain ⟨rfl, -⟩ := h'
  obtain ⟨⟨t1, t2, g1⟩, ⟨s, g2⟩, g3, g4, -⟩ := h1 i hi
  refine ⟨⟨init i, s, t1, t2, g1, g2⟩, g3, ?_⟩
  rcases g4 with g4 | g4
  · exact .inr g4
  · exact .inl g4

/-- The assumptions hold for a run of two TicTacToe games. -/
example : (demoSelfPlay 2 9).toOption.map (fun r => (r.1.turns 0).length) = some 7 := by decide +kernel

/-! ## C45 -/

/-- C45 as stated: the result of a run consists of lists for each game, and every fragment listed for a decided game is a
recorded fragment of that game, labelled with the result. -/
def C45_statement : Prop :=
  ∀ (G : Game) (R : G.S → Prop) (Fl : Floats) (net : Net Fl) (cfg : SelfPlayConfig) (o : Orders G) (n : Nat) (t t' : Tape)
    (sp : SelfPlay G), SafeNet G R → Coded G R → Starts G R → net.alphaOk = true → PwOK cfg.pw → cfg.iterations ≠ 0 →
    o.Valid → selfPlayRun net cfg o n (cfg.limit + 1) t = .ok (sp, t') →
    ∃ (out : Nat → List Frag) (D : List Nat), D.Perm (List.range n) ∧ sp.all = D.flatMap out ∧
      ∀ i w, i < n → decided (sp.turns i) = some w → ∃ mem, sp.mems[i]? = some mem ∧
        ∀ f ∈ out i, ∃ m ∈ mem, f = { m with outcome := result w m.outcome }

/-- In this run the seventh move wins, after the round limit 6 has been noticed: the first six fragments are returned
twice, first with label 0. -/
theorem demo_limit : (demoSelfPlay 1 6).toOption.map (fun r => (r.1.all.map Frag.outcome,
    r.1.mems.map fun l => l.map Frag.outcome, decided (r.1.turns 0))) =
    some ([0, 0, 0, 0, 0, 0, 1, -1, 1, -1, 1, -1, 1], [[-1, 1, -1, 1, -1, 1, -1]], some (-1)) := by
  decide +kernel

/-- C45 is false: the fragments of a game which is won in the turn played after the round limit are returned with label
0 as well. -/
theorem C45_refuted : ¬ C45_statement := by
  intro h
  have hd := demo_limit
  cases hr : demoSelfPlay 1 6 with
  | error e => rw [hr] at hd; cases hd
  | ok r =>
    rw [hr] at hd
    simp only [Except.toOption, Option.map_some, Option.some.injEq, Prod.mk.injEq] at hd
    obtain ⟨h1, h2, h3⟩ := hd
    obtain ⟨out, D, hD, hall, hout⟩ := h (TTT.game .debug) _ demoFloats demoNet (demoConfig 6) (demoOrders _) 1 demoTape r.2
      r.1 (ttt_safeNet _) (ttt_coded _) (ttt_starts _) rfl (demoConfig_ok 6).1.toPwOK (demoConfig_ok 6).2 (demoOrders_valid _) hr
    obtain rfl : D = [0] := by
      have : List.range 1 = [0] := rfl
      rw [this] at hD
      exact List.perm_singleton.1 hD
    have hall : r.1.all = out 0 := by simpa using hall
    obtain ⟨mem, hm, hf⟩ := hout 0 (-1) (by decide) h3
    -- the first fragment has label 0
    cases hl : r.1.all with
    | nil => rw [hl] at h1; cases h1
    | cons f fs =>
      rw [hl] at h1
      simp only [List.map_cons, List.cons.injEq] at h1
      obtain ⟨m, hmm, he⟩ := hf f (by rw [← hall, hl]; exact List.mem_cons_self ..)
      -- the recorded players are 1 and -1
      have hp : m.outcome = 1 ∨ m.outcome = -1 := by
        have h4 : (r.1.mems.map fun l => l.map Frag.outcome)[0]? = some (mem.map Frag.outcome) := by
          rw [List.getElem?_map, hm]; rfl
        rw [h2] at h4
        have h5 : m.outcome ∈ mem.map Frag.outcome := List.mem_map_of_mem hmm
        have h6 : [-1, 1, -1, 1, -1, 1, -1] = mem.map Frag.outcome := by
          injection h4
        rw [← h6] at h5
        simp only [List.mem_cons, List.not_mem_nil, or_false] at h5
        omega
      have h0 : f.outcome = 0 := h1.1
      rw [he] at h0
      have h0 : result (-1) m.outcome = 0 := h0
      rcases hp with hp | hp <;> rw [hp] at h0 <;> exact absurd h0 (by decide)

/-- What is known of the result of a run. -/
theorem run_facts {R : G.S → Prop} (hs : SafeNet G R) (hc : Coded G R) (hst : Starts G R) {net : Net Fl}
    (ha : net.alphaOk = true) {cfg : SelfPlayConfig} (hpw : PwOK cfg.pw) (hit : cfg.iterations ≠ 0) {o : Orders G}
    (ho : o.Valid) {n : Nat} {t t' : Tape} {sp : SelfPlay G}
    (h : selfPlayRun net cfg o n (cfg.limit + 1) t = .ok (sp, t')) :
    ∃ D : List Nat, D.Perm (List.range n) ∧ sp.all = D.flatMap (fun i => emitted cfg.limit (sp.turns i)) ∧
      sp.mems = (List.range n).map (fun i => frags id (sp.turns i)) ∧
      ∀ i, i < n → sp.mems[i]? = some (frags id (sp.turns i)) := by
  obtain ⟨sp', t'', init, D, h', h1, h2, hlen, h3⟩ :=
    selfPlayRun_spec hs hc hst ha cfg hpw hit ho n _ (Nat.le_refl _) t
  rw [h] at h'
  injection h' with h'
  simp only [Prod.mk.injEq] at h'
  obtain ⟨rfl, -⟩ := h'
  refine ⟨D, h1, h2, ?_, fun i hi => (h3 i hi).2.2.2.2⟩
  apply List.ext_getElem?
  intro i
  by_cases hi : i < n
  · rw [(h3 i hi).2.2.2.2, List.getElem?_map, List.getElem?_range hi]
    rfl
  · rw [List.getElem?_eq_none (by omega), List.getElem?_eq_none (by simpa using hi)]

theorem mem_frags {f : Int → Int} {l : List (Turn G)} {x : Frag} (h : x ∈ frags f l) :
    ∃ m ∈ frags id l, x = { m with outcome := f m.outcome } := by
  rw [← relabel_frags] at h
  obtain ⟨m, hm, rfl⟩ := List.mem_map.1 h
  exact ⟨m, hm, rfl⟩

/-- C45, except for games decided in the turn played after the round limit.  Missing for the full statement: those
games; there it is false (`C45_refuted`). -/
theorem C45_partial {R : G.S → Prop} (hs : SafeNet G R) (hc : Coded G R) (hst : Starts G R) {net : Net Fl}
    (ha : net.alphaOk = true) {cfg : SelfPlayConfig} (hpw : PwOK cfg.pw) (hit : cfg.iterations ≠ 0) {o : Orders G}
    (ho : o.Valid) {n : Nat} {t t' : Tape} {sp : SelfPlay G}
    (h : selfPlayRun net cfg o n (cfg.limit + 1) t = .ok (sp, t')) :
    ∃ (out : Nat → List Frag) (D : List Nat), D.Perm (List.range n) ∧ sp.all = D.flatMap out ∧
      ∀ i w, i < n → decided (sp.turns i) = some w → (sp.turns i).length ≤ cfg.limit → ∃ mem, sp.mems[i]? = some mem ∧
        ∀ f ∈ out i, ∃ m ∈ mem, f = { m with outcome := result w m.outcome } := by
  obtain ⟨D, h1, h2, -, h3⟩ := run_facts hs hc hst ha hpw hit ho h
  refine ⟨_, D, h1, h2, ?_⟩
  intro i w hi hw hl
  refine ⟨_, h3 i hi, ?_⟩
  intro f hf
  unfold emitted at hf
  rw [if_neg (by omega), hw, List.nil_append] at hf
  exact mem_frags hf

/-- In every run, also beyond the round limit, every recorded fragment of a decided game is returned with the label of
the result. -/
theorem C45_labelled {R : G.S → Prop} (hs : SafeNet G R) (hc : Coded G R) (hst : Starts G R) {net : Net Fl}
    (ha : net.alphaOk = true) {cfg : SelfPlayConfig} (hpw : PwOK cfg.pw) (hit : cfg.iterations ≠ 0) {o : Orders G}
    (ho : o.Valid) {n : Nat} {t t' : Tape} {sp : SelfPlay G}
    (h : selfPlayRun net cfg o n (cfg.limit + 1) t = .ok (sp, t')) (i : Nat) (hi : i < n) (w : Int)
    (hw : decided (sp.turns i) = some w) :
    ∃ mem, sp.mems[i]? = some mem ∧ ∀ m ∈ mem, { m with outcome := result w m.outcome } ∈ sp.all := by
  obtain ⟨D, h1, h2, -, h3⟩ := run_facts hs hc hst ha hpw hit ho h
  refine ⟨_, h3 i hi, ?_⟩
  intro m hm
  rw [h2, List.mem_flatMap]
  refine ⟨i, h1.mem_iff.2 (List.mem_range.2 hi), ?_⟩
  unfold emitted
  rw [hw]
  refine List.mem_append_right _ ?_
  simp only
  rw [← relabel_frags]
  exact List.mem_map.2 ⟨m, hm, rfl⟩

/-- A won game within the limit: the winner's fragments have label 1, the loser's -1. -/
example : (demoSelfPlay 1 9).toOption.map (fun r => (r.1.all.map Frag.outcome, decided (r.1.turns 0),
    (r.1.turns 0).length)) = some ([1, -1, 1, -1, 1, -1, 1], some (-1), 7) := by decide +kernel

/-! ## C46 -/

/-- A fragment without its label. -/
def bare (f : Frag) : Row × Tensor Int := (f.ps, f.state)

/-- C46 as stated: up to order and labels, the result of a run consists of the recorded fragments of all games. -/
def C46_statement : Prop :=
  ∀ (G : Game) (R : G.S → Prop) (Fl : Floats) (net : Net Fl) (cfg : SelfPlayConfig) (o : Orders G) (n : Nat) (t t' : Tape)
    (sp : SelfPlay G), SafeNet G R → Coded G R → Starts G R → net.alphaOk = true → PwOK cfg.pw → cfg.iterations ≠ 0 →
    o.Valid → selfPlayRun net cfg o n (cfg.limit + 1) t = .ok (sp, t') →
    (sp.all.map bare).Perm (sp.mems.flatten.map bare)

/-- With round limit 6, 13 fragments are returned of the 7 recorded; with round limit 4, only 4 of 5. -/
theorem demo_counts : (demoSelfPlay 1 6).toOption.map (fun r => (r.1.all.length, r.1.mems.flatten.length)) = some (13, 7) ∧
    (demoSelfPlay 1 4).toOption.map (fun r => (r.1.all.length, r.1.mems.flatten.length)) = some (4, 5) := by
  constructor <;> decide +kernel

/-- C46 is false: fragments of games which reach the round limit are returned twice, or not at all. -/
theorem C46_refuted : ¬ C46_statement := by
  intro h
  have hd := demo_counts.2
  cases hr : demoSelfPlay 1 4 with
  | error e => rw [hr] at hd; cases hd
  | ok r =>
    rw [hr] at hd
    simp only [Except.toOption, Option.map_some, Option.some.injEq, Prod.mk.injEq] at hd
    have := (h (TTT.game .debug) _ demoFloats demoNet (demoConfig 4) (demoOrders _) 1 demoTape r.2
      r.1 (ttt_safeNet _) (ttt_coded _) (ttt_starts _) rfl (demoConfig_ok 4).1.toPwOK (demoConfig_ok 4).2 (demoOrders_valid _)
      hr).length_eq
    rw [List.length_map, List.length_map, hd.1, hd.2] at this
    exact absurd this (by decide)

theorem bare_frags (f g : Int → Int) (l : List (Turn G)) : (frags f l).map bare = (frags g l).map bare := by
  rw [← relabel_frags f, ← relabel_frags g]
  unfold relabel
  rw [List.map_map, List.map_map]
  rfl

/-- C46, if all games end within the round limit.  Missing for the full statement: games which reach the limit; there it
is false (`C46_refuted`), see `C46_limit` for what happens. -/
theorem C46_partial {R : G.S → Prop} (hs : SafeNet G R) (hc : Coded G R) (hst : Starts G R) {net : Net Fl}
    (ha : net.alphaOk = true) {cfg : SelfPlayConfig} (hpw : PwOK cfg.pw) (hit : cfg.iterations ≠ 0) {o : Orders G}
    (ho : o.Valid) {n : Nat} {t t' : Tape} {sp : SelfPlay G}
    (h : selfPlayRun net cfg o n (cfg.limit + 1) t = .ok (sp, t'))
    (hlim : ∀ i, i < n → (sp.turns i).length ≤ cfg.limit) :
    (sp.all.map bare).Perm (sp.mems.flatten.map bare) := by
  obtain ⟨D, h1, h2, h3, -⟩ := run_facts hs hc hst ha hpw hit ho h
  have hend : ∀ i ∈ D, (emitted cfg.limit (sp.turns i)).map bare = (frags id (sp.turns i)).map bare := by
    intro i hi
    have hin : i < n := List.mem_range.1 (h1.mem_iff.1 hi)
    have hl := hlim i hin
    obtain ⟨-, -, h4⟩ := C64_games hs hc hst ha cfg hpw hit ho (Nat.le_refl _) h i hin
    unfold emitted
    rw [if_neg (by omega), List.nil_append]
    cases hw : decided (sp.turns i) with
    | none =>
      rcases h4 with h4 | h4
      · exact absurd hw h4.2
      · omega
    | some w => exact bare_frags _ _ _
  rw [h2, h3, ← List.flatMap_def, List.map_flatMap, List.map_flatMap, List.flatMap_congr hend]
  exact h1.flatMap_right _

/-- What happens to a game which reaches the round limit: the fragments of its first `limit` turns are returned with
label 0; the fragment of the last turn is lost, unless this turn decides the game: then all fragments are returned, so
all but the last twice. -/
theorem C46_limit {R : G.S → Prop} (hs : SafeNet G R) (hc : Coded G R) (hst : Starts G R) {net : Net Fl}
    (ha : net.alphaOk = true) {cfg : SelfPlayConfig} (hpw : PwOK cfg.pw) (hit : cfg.iterations ≠ 0) {o : Orders G}
    (ho : o.Valid) {n : Nat} {t t' : Tape} {sp : SelfPlay G}
    (h : selfPlayRun net cfg o n (cfg.limit + 1) t = .ok (sp, t')) :
    ∃ (out : Nat → List Frag) (D : List Nat), D.Perm (List.range n) ∧ sp.all = D.flatMap out ∧
      ∀ i, i < n → cfg.limit < (sp.turns i).length →
        (decided (sp.turns i) = none → out i = frags (fun _ => 0) (sp.turns i).dropLast) ∧
        ∀ w, decided (sp.turns i) = some w →
          out i = frags (fun _ => 0) (sp.turns i).dropLast ++ frags (result w) (sp.turns i) := by
  obtain ⟨D, h1, h2, -, -⟩ := run_facts hs hc hst ha hpw hit ho h
  refine ⟨_, D, h1, h2, ?_⟩
  intro i hi hl
  obtain ⟨-, -, h4⟩ := C64_games hs hc hst ha cfg hpw hit ho (Nat.le_refl _) h i hi
  have hlen : (sp.turns i).length = cfg.limit + 1 := by omega
  have htake : (sp.turns i).take cfg.limit = (sp.turns i).dropLast := by
    rw [List.dropLast_eq_take, hlen]
    rfl
  constructor
  · intro hw
    unfold emitted
    rw [if_pos hl, hw, htake, List.append_nil]
  · intro w hw
    unfold emitted
    rw [if_pos hl, hw, htake]

/-- A TicTacToe game played by the rules and not continued after a result is a game in the sense of `T.Hist`. -/
theorem ttt_log (pf : Profile) {pw : Rat → Rat} (hpw : PwWarm 9 pw) {l : List (Turn (TTT.game pf))} {s : TTT.State} (h : Log (TTT.game pf) pw TTT.new l s)
    (ho : Open l) : (∃ ms, T.Hist pf (-1) ms s ∧ ms.length = l.length) ∧ (decided l = none → TTT.checkWinner s = none) := by
  induction h with
  | nil => exact ⟨⟨[], .start, rfl⟩, fun _ => by decide⟩
  | @snoc l m t hlog hb hf ih =>
    have hol : Open l := by
      intro k hk
      have := ho k (by rw [List.length_append]; omega)
      rwa [List.take_append_of_le_length (by omega)] at this
    have hdl : decided l = none := by
      have := ho l.length (by rw [List.length_append]; simp)
      rwa [List.take_left'] at this
      rfl
    obtain ⟨⟨ms, h1, h2⟩, h3⟩ := ih hol
    have hw := h3 hdl
    cases t with
    | skip a b =>
      obtain rfl : a = m := hb
      obtain ⟨hm, -⟩ := hf
      have hm : (Except.ok (TTT.getValidMoves a) : Res (List Nat)) = .ok [] :=
        hm.resolve_right (not_vanishes hpw)
      injection hm with hm
      exact absurd hm (T.C28_no_winner_move a hw)
    | move a ps mv b =>
      obtain rfl : a = m := hb
      obtain ⟨⟨ms', hm, hmem⟩, ⟨t, t', hp⟩, -⟩ := hf
      have hm : (Except.ok (TTT.getValidMoves a) : Res (List Nat)) = .ok ms' := hm
      injection hm with hm
      subst hm
      have hp : M.lift (TTT.applyMove pf a mv) t = .ok (b, t') := hp
      let mv' : Nat := mv
      refine ⟨⟨ms ++ [mv'], .step h1 hmem (M.lift_ok.1 hp).1, ?_⟩, ?_⟩
      · rw [List.length_append, List.length_append, h2]
        rfl
      · intro hd
        rw [decided_snoc] at hd
        exact hd

/-- With a round limit of at least 9 no TicTacToe game of a run reaches it. -/
theorem ttt_within (pf : Profile) {net : Net Fl}
    (ha : net.alphaOk = true) {cfg : SelfPlayConfig} (hpw : PwWarm 9 cfg.pw) (hit : cfg.iterations ≠ 0)
    {o : Orders (TTT.game pf)} (ho : o.Valid) {n : Nat} {t t' : Tape} {sp : SelfPlay (TTT.game pf)} (hl : 9 ≤ cfg.limit)
    (h : selfPlayRun net cfg o n (cfg.limit + 1) t = .ok (sp, t')) (i : Nat) (hi : i < n) :
    (sp.turns i).length ≤ cfg.limit := by
  obtain ⟨⟨s0, s, t1, t2, hs, hlog⟩, hopen, -⟩ :=
    C64_games (ttt_safeNet pf) (ttt_coded pf) (ttt_starts pf) ha cfg hpw.toPwOK hit ho (Nat.le_refl _) h i hi
  have hs : (Except.ok (TTT.new, t1) : Res (TTT.State × Tape)) = .ok (s0, t2) := hs
  injection hs with hs
  injection hs with hs _
  subst hs
  obtain ⟨⟨ms, h1, h2⟩, -⟩ := ttt_log pf hpw hlog hopen
  have := (T.C28_ends pf h1).1
  omega

/-- C45 and C46 hold for TicTacToe with a round limit of at least 9 (the configured limit is 400): every recorded
fragment is returned exactly once, with the label of the result. -/
theorem C46_tictactoe (pf : Profile) {net : Net Fl} (ha : net.alphaOk = true) {cfg : SelfPlayConfig} (hpw : PwWarm 9 cfg.pw)
    (hit : cfg.iterations ≠ 0) {o : Orders (TTT.game pf)} (ho : o.Valid) {n : Nat} {t t' : Tape}
    {sp : SelfPlay (TTT.game pf)} (hl : 9 ≤ cfg.limit) (h : selfPlayRun net cfg o n (cfg.limit + 1) t = .ok (sp, t')) :
    ∃ D : List Nat, D.Perm (List.range n) ∧ sp.all = D.flatMap (fun i => expected (sp.turns i)) ∧
      ∀ i, i < n → decided (sp.turns i) ≠ none := by
  obtain ⟨D, h1, h2, -, -⟩ := run_facts (ttt_safeNet pf) (ttt_coded pf) (ttt_starts pf) ha hpw.toPwOK hit ho h
  have hdec : ∀ i, i < n → decided (sp.turns i) ≠ none := by
    intro i hi
    have hle := ttt_within pf ha hpw hit ho hl h i hi
    obtain ⟨-, -, h4⟩ :=
      C64_games (ttt_safeNet pf) (ttt_coded pf) (ttt_starts pf) ha cfg hpw.toPwOK hit ho (Nat.le_refl _) h i hi
    rcases h4 with h4 | h4
    · exact h4.2
    · omega
  refine ⟨D, h1, ?_, hdec⟩
  rw [h2]
  apply List.flatMap_congr
  intro i hi
  have hin : i < n := List.mem_range.1 (h1.mem_iff.1 hi)
  have hle := ttt_within pf ha hpw hit ho hl h i hin
  have hd := hdec i hin
  unfold emitted expected
  rw [if_neg (by omega), List.nil_append]
  cases hw : decided (sp.turns i) with
  | none => exact absurd hw hd
  | some w => rfl

/-! ## C47 -/

/-- C47 as stated, for any search function. -/
def C47_statement : Prop :=
  ∀ (G : Game) (search : G.S → M (Option Row)) (pw : Rat → Rat) (f : Nat) (t t' : Tape) (mem : List Frag)
    (l : List (Turn G)), selfPlaySingle search pw f t = .ok ((mem, l), t') →
    ∃ w, decided l = some w ∧ mem = frags (result w) l

/-- A search which gives all weight to the cells in the order 0, 1, 2, 4, 3, 5, 7, 6, 8: nobody wins. -/
def drawSearch (s : TTT.State) : M (Option Row) :=
  pure (match [0, 1, 2, 4, 3, 5, 7, 6, 8].find? (fun i => decide (s.cell i = 0)) with
    | some i => some fun c => if c = i then some 1 else some 0
    | none => none)

/-- The drawn game: all fragments get label -1. -/
theorem demo_draw : (selfPlaySingle (G := TTT.game .debug) drawSearch id 10 demoTape).toOption.map (fun r =>
    (r.1.1.map Frag.outcome, decided r.1.2, (frags id r.1.2).map Frag.outcome)) =
    some ([-1, -1, -1, -1, -1, -1, -1, -1, -1], some 0, [-1, 1, -1, 1, -1, 1, -1, 1, -1]) := by
  decide +kernel

/-- C47 is false: a draw is labelled as a loss of both players. -/
theorem C47_refuted : ¬ C47_statement := by
  intro h
  have hd := demo_draw
  cases hr : selfPlaySingle (G := TTT.game .debug) drawSearch id 10 demoTape with
  | error e => rw [hr] at hd; cases hd
  | ok r =>
    obtain ⟨⟨mem, l⟩, t'⟩ := r
    rw [hr] at hd
    simp only [Except.toOption, Option.map_some, Option.some.injEq, Prod.mk.injEq] at hd
    obtain ⟨w, hw, hm⟩ := h _ _ _ _ _ _ _ _ hr
    rw [hd.2.1] at hw
    injection hw with hw
    subst hw
    rw [← relabel_frags] at hm
    have h1 : mem.map Frag.outcome = ((frags id l).map Frag.outcome).map (result 0) := by
      rw [hm]
      unfold relabel
      rw [List.map_map, List.map_map]
      rfl
    rw [hd.1, hd.2.2] at h1
    exact absurd h1 (by decide)

/-- The turns and fragments collected by the loop: the turns played so far decide nothing. -/
theorem selfPlayLoop_ok {search : G.S → M (Option Row)} {pw : Rat → Rat} (f : Nat) {s : G.S} {mem : List Frag}
    {l : List (Turn G)} {t t' : Tape} {out : List Frag} {l' : List (Turn G)} (hm : mem = frags id l)
    (h : selfPlayLoop search pw f s mem l t = .ok ((out, l'), t')) :
    ∃ w, decided l' = some w ∧ out = relabel (labelSingle w) (frags id l') := by
  induction f generalizing s mem l t with
  | zero => exact absurd h (fun h => M.fail_ok.1 h)
  | succ f ih =>
    unfold selfPlayLoop at h
    obtain ⟨r, t1, h1, h⟩ := M.bind_ok.1 h
    cases r with
    | none =>
      simp only at h
      obtain ⟨s', t2, h2, h⟩ := M.bind_ok.1 h
      refine ih ?_ h
      rw [frags_append, frags_single, hm]
      exact (List.append_nil _).symm
    | some pi =>
      simp only at h
      obtain ⟨c, t2, h2, h⟩ := M.bind_ok.1 h
      obtain ⟨x, t3, h3, h⟩ := M.bind_ok.1 h
      obtain ⟨a, t4, h4, h⟩ := M.bind_ok.1 h
      obtain ⟨s', t5, h5, h⟩ := M.bind_ok.1 h
      have hx := (M.lift_ok.1 h3).1
      have hmem : mem ++ [{ outcome := G.player s, ps := temper pw pi, state := x }] =
          frags id (l ++ [Turn.move s (temper pw pi) a s']) := by
        rw [frags_append, frags_single, hm]
        unfold fragOf
        simp only
        rw [hx]
        rfl
      cases hw : G.winner s' with
      | none =>
        rw [hw] at h
        exact ih hmem h
      | some w =>
        rw [hw] at h
        have h := M.pure_ok.1 h
        simp only [Prod.mk.injEq] at h
        obtain ⟨⟨rfl, rfl⟩, -⟩ := h
        refine ⟨w, ?_, by rw [hmem]⟩
        rw [decided_snoc]
        exact hw

/-- The labels of `self_play`, whatever the search: 1 for the winner, -1 for everybody else. -/
theorem C47_labels {search : G.S → M (Option Row)} {pw : Rat → Rat} {f : Nat} {t t' : Tape} {mem : List Frag}
    {l : List (Turn G)} (h : selfPlaySingle search pw f t = .ok ((mem, l), t')) :
    ∃ w, decided l = some w ∧ mem = frags (fun p => if p = w then 1 else -1) l := by
  obtain ⟨s, t1, h1, h⟩ := M.bind_ok.1 h
  obtain ⟨w, h2, h3⟩ := selfPlayLoop_ok f (l := []) rfl h
  refine ⟨w, h2, ?_⟩
  rw [h3, relabel_frags]
  rfl

/-- C47 for games which are not drawn: the players are 1 and -1, and one of them wins.  Missing for the full statement:
draws; there it is false (`C47_refuted`). -/
theorem C47_partial {search : G.S → M (Option Row)} {pw : Rat → Rat} {f : Nat} {t t' : Tape} {mem : List Frag}
    {l : List (Turn G)} (h : selfPlaySingle search pw f t = .ok ((mem, l), t')) {w : Int} (hw : decided l = some w)
    (hp : ∀ m ∈ frags id l, m.outcome = 1 ∨ m.outcome = -1) (hd : w = 1 ∨ w = -1) : mem = frags (result w) l := by
  obtain ⟨w', h1, h2⟩ := C47_labels h
  rw [hw] at h1
  injection h1 with h1
  subst h1
  rw [h2, ← relabel_frags, ← relabel_frags (result w)]
  unfold relabel
  refine List.map_congr_left ?_
  intro m hm
  have : (if m.outcome = w then (1 : Int) else -1) = result w m.outcome := by
    unfold result
    rcases hp m hm with h | h <;> rcases hd with h' | h' <;> rw [h, h'] <;> decide
  show ({ outcome := (if m.outcome = w then (1 : Int) else -1), ps := m.ps, state := m.state } : Frag) = _
  rw [this]

/-- A search which prefers low cells: the first player wins. -/
def lowSearch (s : TTT.State) : M (Option Row) :=
  pure (match (List.range 9).find? (fun i => decide (s.cell i = 0)) with
    | some i => some fun c => if c = i then some 1 else some 0
    | none => none)

/-- The hypotheses of `C47_partial` hold for a game won by the first player. -/
example : (selfPlaySingle (G := TTT.game .debug) lowSearch id 10 demoTape).toOption.map (fun r =>
    (r.1.1.map Frag.outcome, decided r.1.2, (frags id r.1.2).map Frag.outcome)) =
    some ([1, -1, 1, -1, 1, -1, 1], some (-1), [-1, 1, -1, 1, -1, 1, -1]) := by
  decide +kernel

/-- With the search of the code base `self_play` never returns: the first search of a TicTacToe game panics. -/
theorem C47_tictactoe_panics (pf : Profile) (net : Net Fl) (pw : Rat → Rat) (iterations f : Nat) (t : Tape) :
    selfPlaySingle (G := TTT.game pf) (fun s => alphaMctsProbs (G := TTT.game pf) net s iterations) pw (f + 1) t =
      .error .tensorError := by
  unfold selfPlaySingle
  refine (M.bind_eq (a := TTT.new) (t' := t) rfl).trans ?_
  exact M.bind_err (C43_panics (ttt_safeNet pf) net (s := TTT.new) (.inr rfl)
    (show TTT.checkWinner TTT.new = none by decide) (ms := TTT.getValidMoves TTT.new) rfl (show TTT.getValidMoves TTT.new ≠ ([] : List Nat) by decide) iterations t)

/-- In the initial position of Backgammon every roll leaves a legal move. -/
theorem bg_first_move (pf : Profile) {d : Int × Int} (hd : Spec.DiceInRange d) :
    ∃ ms, BG.getValidMoves pf (BG.rollWith BG.new d) = .ok ms ∧ ms ≠ [] := by
  have hok := BG.start_ok hd
  obtain ⟨ms, hm, -⟩ := C02_state_ok hok
  refine ⟨ms, hm pf, ?_⟩
  intro he
  have h1 := ((C13_empty_iff_stuck_partial pf hok (hm pf)).2.2.1 he) d.1 (List.mem_cons_self ..)
  have h2 : ∀ d ∈ [(1 : Int), 2, 3, 4, 5, 6], BG.gen (Spec.mover BG.new) BG.new.board d ≠ [] := by decide +kernel
  refine h2 d.1 ?_ h1
  have := hd.1
  simp only [List.mem_cons, List.not_mem_nil, or_false]
  omega

/-- ... and so does the first search of every Backgammon game. -/
theorem C47_backgammon_panics (pf : Profile) (net : Net Fl) (pw : Rat → Rat) (iterations f : Nat) (t : Tape) :
    selfPlaySingle (G := BG.game pf) (fun s => alphaMctsProbs (G := BG.game pf) net s iterations) pw (f + 1) t =
      .error .tensorError := by
  obtain ⟨d, t1, h1, h2⟩ := bg_start pf t
  unfold selfPlaySingle
  refine (M.bind_eq h1).trans ?_
  obtain ⟨ms, h3, h4⟩ := bg_first_move pf h2
  refine M.bind_err (C43_panics (bg_safeNet pf) net (s := BG.rollWith BG.new d) (BG.start_ok h2) ?_ h3 h4 iterations t1)
  show BG.checkWinner (BG.rollWith BG.new d) = none
  show BG.checkWinner BG.new = none
  decide

end DieE.Props.L
