import Verif.Versus.Games
import Verif.Versus.Stuck

/-! # C52–C58, C67: matches -/

namespace DieE.Props.V
open DieE DieE.Mcts DieE.Train DieE.Versus DieE.Props.A DieE.Props.S

variable {G : Game} {Fl : Floats}

/-! ## Sample data -/

/-- Hash maps which keep their order. -/
def demoOrders : Orders := { map := fun _ l => l, set1 := fun _ n => List.range n, set2 := fun _ n => List.range n }

theorem demoOrders_valid : demoOrders.Valid := ⟨fun _ l => List.Perm.refl l, fun _ _ => List.Perm.refl _, fun _ _ => List.Perm.refl _⟩

/-- One iteration per search, temperature 1. -/
def demoConfig : Config := { iterations := 1, limit := 9, pw := fun x => x }

/-- A random player. -/
def randomPlayer : Player demoFloats := { agent := .random, net := none }

/-- A network player. -/
def netPlayer : Player demoFloats := { agent := .model, net := some demoNet }

/-- A match of `n` TicTacToe games between a network player and a random player. -/
def demoMatch (n limit : Nat) : Res (PlayResult (TTT.game .debug) × Tape) :=
  playN .debug (fun x => x) netPlayer randomPlayer demoConfig n limit demoOrders 9 demoTape

/-! ## C53, C55 -/

/-- The match behind a result. -/
def Behind (pf : Profile) (rnd : Rat → Rat) (p1 p2 : Player Fl) (cfg : Config) (n limit : Nat) (o : Orders) (f : Nat)
    (t t' : Tape) (r : PlayResult G) (m : Match G) : Prop :=
  playRun p1.agent p2.agent (fun k => getActions p1 cfg (o.set1 k)) (fun k => getActions p2 cfg (o.set2 k)) n limit
    o.map f t = .ok (m, t') ∧ Versus.result pf rnd p1.agent p2.agent n m = .ok r

theorem countP_split (l : List Nat) (g : Nat → Int) :
    l.countP (fun i => decide (g i = -1)) + l.countP (fun i => decide (g i = 1)) +
      l.countP (fun i => decide (g i ≠ -1 ∧ g i ≠ 1)) = l.length := by
  induction l with
  | nil => rfl
  | cons i l ih =>
    have hx : (decide (g i = -1) = true ∧ decide (g i = 1) = false ∧ decide (g i ≠ -1 ∧ g i ≠ 1) = false) ∨
        (decide (g i = -1) = false ∧ decide (g i = 1) = true ∧ decide (g i ≠ -1 ∧ g i ≠ 1) = false) ∨
        (decide (g i = -1) = false ∧ decide (g i = 1) = false ∧ decide (g i ≠ -1 ∧ g i ≠ 1) = true) := by
      simp only [decide_eq_true_eq, decide_eq_false_iff_not]
      omega
    simp only [List.countP_cons, List.length_cons]
    rcases hx with ⟨e1, e2, e3⟩ | ⟨e1, e2, e3⟩ | ⟨e1, e2, e3⟩ <;>
      simp only [e1, e2, e3, if_true, Bool.false_eq_true, if_false] <;> omega

theorem result_of_inv {R : G.S → Prop} {a1 a2 : Agent} {A1 A2 : G.S → G.Mv → Prop} {n limit : Nat} {init : Nat → G.S} {k : Nat}
    {D : List Nat} {m : Match G} (h : Inv R a1 a2 A1 A2 n limit init k D m) (hD : D.Perm (List.range n)) (pf : Profile)
    (rnd : Rat → Rat) :
    ∃ r, Versus.result pf rnd a1 a2 n m = .ok r ∧ r.winrate = rnd (r.wins1 / n) ∧ r.wins1 = m.wins1 ∧ r.wins2 = m.wins2 ∧
      r.games = m.played ∧ Accounted A1 A2 a1 a2 n limit m.steps r := by
  have hlen : D.length = n := by rw [hD.length_eq, List.length_range]
  have hsplit := countP_split D (fun i => outcome (m.steps i))
  have hle : m.wins1 + m.wins2 ≤ n := by
    rw [h.wins1, h.wins2]
    unfold wins
    omega
  refine ⟨{ player1 := a1, player2 := a2, wins1 := m.wins1, wins2 := m.wins2, draws := n - (m.wins1 + m.wins2), nGames := n, winrate := rnd (m.wins1 / n), games := m.played }, ?_, rfl, rfl, rfl, rfl, ?_⟩
  · unfold Versus.result usizeSub
    rw [if_pos hle]
    rfl
  · have hrec : ∀ g ∈ m.played, ∃ i ∈ D, g = doneRec a1 a2 init m.steps i := by
      intro g hg
      rw [h.played] at hg
      obtain ⟨i, hi, rfl⟩ := List.mem_map.1 hg
      exact ⟨i, hi, rfl⟩
    refine ⟨rfl, ?_, ?_, ?_, ?_, ?_, ⟨rfl, rfl, ?_⟩, ?_, ?_⟩
    · show m.wins1 + m.wins2 + (n - (m.wins1 + m.wins2)) = n
      omega
    · show (m.played.map Rec.key).Perm (List.range n)
      rw [h.played, List.map_map]
      have : D.map (Rec.key ∘ doneRec a1 a2 init m.steps) = D := List.map_id _
      rw [this]
      exact hD
    · show m.wins1 = _
      rw [h.wins1, ← List.countP_eq_length_filter]
      exact hD.countP_eq _
    · show m.wins2 = _
      rw [h.wins2, ← List.countP_eq_length_filter]
      exact hD.countP_eq _
    · show n - (m.wins1 + m.wins2) = _
      rw [h.wins1, h.wins2, ← List.countP_eq_length_filter, ← hD.countP_eq]
      unfold wins
      omega
    · intro g hg
      obtain ⟨i, -, rfl⟩ := hrec g hg
      exact ⟨rfl, rfl⟩
    · intro g hg
      obtain ⟨i, -, rfl⟩ := hrec g hg
      rfl
    · intro g hg
      obtain ⟨i, hi, rfl⟩ := hrec g hg
      obtain ⟨⟨⟨s, h1⟩, h2⟩, -⟩ := h.done i hi
      exact ⟨⟨s, h1.link⟩, fun st hst => ⟨h1.fair st hst, h1.chosen st hst⟩, h2⟩

/-- C53, C55, for any number of games and any round limit. -/
theorem accounted (hid : Ids G) {pf : Profile} {rnd : Rat → Rat} {p1 p2 : Player Fl} {cfg : Config} {n limit : Nat}
    {o : Orders} (ho : o.Valid) {f : Nat} {t t' : Tape} {r : PlayResult G}
    (h : playN pf rnd p1 p2 cfg n limit o f t = .ok (r, t')) :
    ∃ m, Behind pf rnd p1 p2 cfg n limit o f t t' r m ∧ r.winrate = rnd (r.wins1 / n) ∧
      Accounted (Picks p1 cfg) (Picks p2 cfg) p1.agent p2.agent n limit m.steps r ∧
      (∀ g ∈ r.games, ∃ u u', initState G n g.key u = .ok (g.initial, u')) ∧ ∀ g ∈ r.games, g.turns = [] := by
  obtain ⟨m, t1, h1, h2⟩ := M.bind_ok.1 h
  obtain ⟨h0, rfl⟩ := M.lift_ok.1 h2
  obtain ⟨init, k, D, h3, h4, h5, -⟩ := playRun_inv hid (closed_true G) (answers_picks ho.set1 _) (answers_picks ho.set2 _)
    (fun _ _ _ _ _ => trivial) ho.map h1
  obtain ⟨r', h6, h7, -, -, h8, h9⟩ := result_of_inv h4 h5 pf rnd
  obtain rfl := Except.ok.inj (h0.symm.trans h6)
  refine ⟨m, ⟨h1, h0⟩, h7, h9, ?_, ?_⟩
  · intro g hg
    rw [h8, h4.played] at hg
    obtain ⟨i, hi, rfl⟩ := List.mem_map.1 hg
    exact h3 i (List.mem_range.1 (h5.mem_iff.1 hi))
  · intro g hg
    rw [h8, h4.played] at hg
    obtain ⟨i, hi, rfl⟩ := List.mem_map.1 hg
    rfl

/-- C53 for TicTacToe. -/
theorem C53_tictactoe {pf : Profile} {rnd : Rat → Rat} {p1 p2 : Player Fl} {cfg : Config} {o : Orders} (ho : o.Valid)
    {f : Nat} {t t' : Tape} {r : PlayResult (TTT.game pf)} (h : play pf rnd p1 p2 cfg o f t = .ok (r, t')) :
    ∃ m, Behind pf rnd p1 p2 cfg 400 400 o f t t' r m ∧
      Accounted (Picks p1 cfg) (Picks p2 cfg) p1.agent p2.agent 400 400 m.steps r := by
  obtain ⟨m, h1, -, h2, -⟩ := accounted (ttt_ids pf) ho h
  exact ⟨m, h1, h2⟩

/-- C53 for Backgammon. -/
theorem C53_backgammon {pf : Profile} {rnd : Rat → Rat} {p1 p2 : Player Fl} {cfg : Config} {o : Orders} (ho : o.Valid)
    {f : Nat} {t t' : Tape} {r : PlayResult (BG.game pf)} (h : play pf rnd p1 p2 cfg o f t = .ok (r, t')) :
    ∃ m, Behind pf rnd p1 p2 cfg 400 400 o f t t' r m ∧
      Accounted (Picks p1 cfg) (Picks p2 cfg) p1.agent p2.agent 400 400 m.steps r := by
  obtain ⟨m, h1, -, h2, -⟩ := accounted (bg_ids pf) ho h
  exact ⟨m, h1, h2⟩

theorem count_keys {A1 A2 : G.S → G.Mv → Prop} {a1 a2 : Agent} {n limit : Nat} {steps : Nat → List (Step G)}
    {r : PlayResult G} (h : Accounted A1 A2 a1 a2 n limit steps r) (q : Agent → Bool) :
    (r.games.filter fun g => q g.winner).length =
      ((List.range n).filter fun i => q (winnerAgent a1 a2 (outcome (steps i)))).length := by
  rw [← List.countP_eq_length_filter, ← List.countP_eq_length_filter, ← h.keys.countP_eq, List.countP_map]
  refine List.countP_congr fun g hg => ?_
  rw [h.winner g hg]
  rfl

/-- The winners in the records match the counts, if the players are of different kinds. -/
theorem C53_winners {A1 A2 : G.S → G.Mv → Prop} {a1 a2 : Agent} {n limit : Nat} {steps : Nat → List (Step G)}
    {r : PlayResult G} (h : Accounted A1 A2 a1 a2 n limit steps r) (h1 : a1 ≠ .none) (h2 : a2 ≠ .none) (h12 : a1 ≠ a2) :
    (r.games.filter fun g => decide (g.winner = a1)).length = r.wins1 ∧
    (r.games.filter fun g => decide (g.winner = a2)).length = r.wins2 ∧
    (r.games.filter fun g => decide (g.winner = .none)).length = r.draws := by
  rw [count_keys h (fun a => decide (a = a1)), count_keys h (fun a => decide (a = a2)),
    count_keys h (fun a => decide (a = Agent.none)), h.wins1, h.wins2, h.draws]
  have key : ∀ w : Int, (winnerAgent a1 a2 w = a1 ↔ w = -1) ∧ (winnerAgent a1 a2 w = a2 ↔ w = 1) ∧
      (winnerAgent a1 a2 w = .none ↔ w ≠ -1 ∧ w ≠ 1) := by
    intro w
    unfold winnerAgent
    by_cases e1 : w = -1
    · rw [if_pos e1]
      refine ⟨⟨fun _ => e1, fun _ => rfl⟩, ⟨fun e => absurd e h12, fun e => by omega⟩, ⟨fun e => absurd e h1, fun e => absurd e1 e.1⟩⟩
    · rw [if_neg e1]
      by_cases e2 : w = 1
      · rw [if_pos e2]
        refine ⟨⟨fun e => absurd e.symm h12, fun e => by omega⟩, ⟨fun _ => e2, fun _ => rfl⟩, ⟨fun e => absurd e h2, fun e => absurd e2 e.2⟩⟩
      · rw [if_neg e2]
        exact ⟨⟨fun e => absurd e.symm h1, fun e => absurd e e1⟩, ⟨fun e => absurd e.symm h2, fun e => absurd e e2⟩, ⟨fun _ => ⟨e1, e2⟩, fun _ => rfl⟩⟩
  exact ⟨by simp only [(key _).1], by simp only [(key _).2.1], by simp only [(key _).2.2]⟩

/-- The winners in the records match the counts, if the players are of the same kind (as in the gate). -/
theorem C53_winners_same {A1 A2 : G.S → G.Mv → Prop} {a : Agent} {n limit : Nat} {steps : Nat → List (Step G)}
    {r : PlayResult G} (h : Accounted A1 A2 a a n limit steps r) (h1 : a ≠ .none) :
    (r.games.filter fun g => decide (g.winner = a)).length = r.wins1 + r.wins2 ∧
    (r.games.filter fun g => decide (g.winner = .none)).length = r.draws := by
  rw [count_keys h (fun b => decide (b = a)), count_keys h (fun b => decide (b = Agent.none)), h.wins1, h.wins2, h.draws]
  simp only [← List.countP_eq_length_filter]
  have hs := countP_split (List.range n) (fun i => outcome (steps i))
  have key : ∀ w : Int, (winnerAgent a a w = .none ↔ w ≠ -1 ∧ w ≠ 1) := by
    intro w
    unfold winnerAgent
    by_cases e1 : w = -1
    · rw [if_pos e1]
      exact ⟨fun e => absurd e h1, fun e => absurd e1 e.1⟩
    · rw [if_neg e1]
      by_cases e2 : w = 1
      · rw [if_pos e2]
        exact ⟨fun e => absurd e h1, fun e => absurd e2 e.2⟩
      · rw [if_neg e2]
        exact ⟨fun _ => ⟨e1, e2⟩, fun _ => rfl⟩
  have h3 : (List.range n).countP (fun i => decide (winnerAgent a a (outcome (steps i)) = Agent.none)) =
      (List.range n).countP (fun i => decide (outcome (steps i) ≠ -1 ∧ outcome (steps i) ≠ 1)) := by
    simp only [key]
  refine ⟨?_, h3⟩
  have h4 := List.length_eq_countP_add_countP (l := List.range n)
    (p := fun i => decide (winnerAgent a a (outcome (steps i)) = a))
  have h5 : (List.range n).countP (fun i => decide ¬ (decide (winnerAgent a a (outcome (steps i)) = a)) = true) =
      (List.range n).countP (fun i => decide (winnerAgent a a (outcome (steps i)) = Agent.none)) := by
    refine List.countP_congr fun i _ => ?_
    unfold winnerAgent
    split
    · simp [h1]
    · split
      · simp [h1]
      · simp [Ne.symm h1]
  omega

/-- A match to which C53 applies: three wins of player 1 and one of player 2, the games end in another order. -/
example : (demoMatch 4 9).toOption.map (fun r => (r.1.wins1, r.1.wins2, r.1.draws, r.1.games.map Rec.key,
    r.1.games.map Rec.winner)) = some (3, 1, 0, [0, 1, 3, 2], [.model, .model, .model, .random]) := by decide +kernel

/-! ## C54 -/

/-- Number of the games in a map in which `p` is to move. -/
def toMove (n : Nat) (g : Nat → Option (G.S × Rec G)) (p : Int) : Nat :=
  ((List.range n).filter fun i => match g i with
    | some e => decide (G.player e.1 = p)
    | none => false).length

theorem count_lt (n k : Nat) (h : k ≤ n) : (List.range n).countP (fun i => decide (i < k)) = k := by
  induction n with
  | zero => rw [List.range_zero, List.countP_nil]; omega
  | succ n ih =>
    rw [List.range_succ, List.countP_append, List.countP_singleton]
    by_cases hk : k ≤ n
    · rw [ih hk, if_neg (by simp; omega), Nat.add_zero]
    · obtain rfl : k = n + 1 := by omega
      have : (List.range n).countP (fun i => decide (i < n + 1)) = (List.range n).length := by
        rw [List.countP_eq_length]
        intro i hi
        have := List.mem_range.1 hi
        exact decide_eq_true (by omega)
      rw [this, List.length_range, if_pos (by simp)]

theorem count_ge (n k : Nat) (h : k ≤ n) : (List.range n).countP (fun i => decide (¬ i < k)) = n - k := by
  have h1 := List.length_eq_countP_add_countP (l := List.range n) (p := fun i => decide (i < k))
  rw [count_lt n k h, List.length_range] at h1
  simp only [decide_eq_true_eq] at h1
  omega

/-- What the initial games look like, if `player` is -1 in the first half. -/
theorem initGames_half {R : G.S → Prop} (hb : Begins G R) {n : Nat}
    (hp : ∀ i u s u', initState G n i u = .ok (s, u') → G.player s = if i < n / 2 then -1 else 1) (a1 a2 : Agent) (t : Tape) :
    ∃ g t', initGames (G := G) a1 a2 n (List.range n) (fun _ => none) t = .ok (g, t') ∧
      (∀ i, (g i).isSome ↔ i < n) ∧ toMove n g (-1) = n / 2 ∧ toMove n g 1 = n - n / 2 := by
  obtain ⟨g, t', h⟩ := initGames_ok hb a1 a2 n (List.range n) (fun _ => none) t
  obtain ⟨h1, h2⟩ := initGames_spec _ List.nodup_range h
  refine ⟨g, t', h, ?_, ?_, ?_⟩
  · intro i
    by_cases hi : i < n
    · obtain ⟨s, u, u', -, h4⟩ := h2 i (List.mem_range.2 hi)
      rw [h4]
      exact ⟨fun _ => hi, fun _ => rfl⟩
    · rw [h1 i (fun hm => hi (List.mem_range.1 hm))]
      exact ⟨fun h => (nomatch h), fun h => absurd h hi⟩
  · unfold toMove
    rw [← List.countP_eq_length_filter]
    refine Eq.trans (List.countP_congr fun i hi => ?_) (count_lt n (n / 2) (Nat.div_le_self n 2))
    obtain ⟨s, u, u', h3, h4⟩ := h2 i hi
    simp only [h4]
    rw [hp i u s u' h3]
    by_cases hc : i < n / 2
    · simp [hc]
    · simp [hc]
  · unfold toMove
    rw [← List.countP_eq_length_filter]
    refine Eq.trans (List.countP_congr fun i hi => ?_) (count_ge n (n / 2) (Nat.div_le_self n 2))
    obtain ⟨s, u, u', h3, h4⟩ := h2 i hi
    simp only [h4]
    rw [hp i u s u' h3]
    by_cases hc : i < n / 2
    · simp [hc]
    · simp [hc]

theorem ttt_first {pf : Profile} {n i : Nat} {u u' : Tape} {s : TTT.State}
    (h : initState (TTT.game pf) n i u = .ok (s, u')) :
    s = { player := if i < n / 2 then -1 else 1, board := TTT.new.board, id := i } := by
  rw [ttt_init pf n i u] at h
  exact (Prod.mk.inj (Except.ok.inj h)).1.symm

theorem bg_first {pf : Profile} {n i : Nat} {u u' : Tape} {s : BG.State}
    (h : initState (BG.game pf) n i u = .ok (s, u')) :
    ∃ d, s = { BG.new with player := (if i < n / 2 then -1 else 1 : Int), roll := d, id := i } ∧ Spec.DiceInRange d := by
  obtain ⟨d, u1, h1, h2⟩ := bg_init pf n i u
  rw [h1] at h
  exact ⟨d, (Prod.mk.inj (Except.ok.inj h)).1.symm, h2⟩

/-- C54 for TicTacToe: the 400 games are created whatever the random source is, player 1 (-1) is to move in 200 of them
and player 2 in 200. -/
theorem C54_tictactoe (pf : Profile) (a1 a2 : Agent) (t : Tape) :
    ∃ g t', initGames (G := TTT.game pf) a1 a2 400 (List.range 400) (fun _ => none) t = .ok (g, t') ∧
      (∀ i, (g i).isSome ↔ i < 400) ∧ toMove 400 g (-1) = 200 ∧ toMove 400 g 1 = 200 :=
  initGames_half (ttt_live_begins pf) (fun i u s u' h => by
    rw [show s = _ from ttt_first h]
    rfl) a1 a2 t

/-- C54 for Backgammon. -/
theorem C54_backgammon (pf : Profile) (a1 a2 : Agent) (t : Tape) :
    ∃ g t', initGames (G := BG.game pf) a1 a2 400 (List.range 400) (fun _ => none) t = .ok (g, t') ∧
      (∀ i, (g i).isSome ↔ i < 400) ∧ toMove 400 g (-1) = 200 ∧ toMove 400 g 1 = 200 :=
  initGames_half (bg_begins pf) (fun i u s u' h => by
    obtain ⟨d, hs, -⟩ := bg_first h
    rw [show s = _ from hs]
    rfl) a1 a2 t

theorem records_half {A1 A2 : G.S → G.Mv → Prop} {a1 a2 : Agent} {n limit : Nat} {steps : Nat → List (Step G)} {r : PlayResult G}
    (h : Accounted A1 A2 a1 a2 n limit steps r)
    (hp : ∀ g ∈ r.games, G.player g.initial = if g.key < n / 2 then -1 else 1) :
    (r.games.filter fun g => decide (G.player g.initial = -1)).length = n / 2 ∧
    (r.games.filter fun g => decide (G.player g.initial = 1)).length = n - n / 2 := by
  rw [← List.countP_eq_length_filter, ← List.countP_eq_length_filter]
  constructor
  · rw [← count_lt n (n / 2) (Nat.div_le_self n 2), ← h.keys.countP_eq, List.countP_map]
    refine List.countP_congr fun g hg => ?_
    rw [hp g hg, Function.comp]
    by_cases hc : g.key < n / 2
    · simp [hc]
    · simp [hc]
  · rw [← count_ge n (n / 2) (Nat.div_le_self n 2), ← h.keys.countP_eq, List.countP_map]
    refine List.countP_congr fun g hg => ?_
    rw [hp g hg, Function.comp]
    by_cases hc : g.key < n / 2
    · simp [hc]
    · simp [hc]

/-- C54 for the games in the result of a TicTacToe match: they start from the empty board, player 1 begins 200 of them
and player 2 200. -/
theorem C54_records_tictactoe {pf : Profile} {rnd : Rat → Rat} {p1 p2 : Player Fl} {cfg : Config} {o : Orders} (ho : o.Valid)
    {f : Nat} {t t' : Tape} {r : PlayResult (TTT.game pf)} (h : play pf rnd p1 p2 cfg o f t = .ok (r, t')) :
    (∀ g ∈ r.games, (show TTT.State from g.initial).board = TTT.new.board) ∧
    (r.games.filter fun g => decide ((show TTT.State from g.initial).player = -1)).length = 200 ∧
    (r.games.filter fun g => decide ((show TTT.State from g.initial).player = 1)).length = 200 := by
  obtain ⟨m, -, -, h2, h3, -⟩ := accounted (ttt_ids pf) ho h
  refine ⟨fun g hg => ?_, records_half h2 fun g hg => ?_⟩
  · obtain ⟨u, u', hu⟩ := h3 g hg
    rw [ttt_first hu]
  · obtain ⟨u, u', hu⟩ := h3 g hg
    show (show TTT.State from g.initial).player = _
    rw [ttt_first hu]

/-- C54 for the games in the result of a Backgammon match: they start from the initial board with rolled dice, player 1
begins 200 of them and player 2 200. -/
theorem C54_records_backgammon {pf : Profile} {rnd : Rat → Rat} {p1 p2 : Player Fl} {cfg : Config} {o : Orders} (ho : o.Valid)
    {f : Nat} {t t' : Tape} {r : PlayResult (BG.game pf)} (h : play pf rnd p1 p2 cfg o f t = .ok (r, t')) :
    (∀ g ∈ r.games, (show BG.State from g.initial).board = BG.new.board ∧
      Spec.DiceInRange (show BG.State from g.initial).roll) ∧
    (r.games.filter fun g => decide ((show BG.State from g.initial).player = -1)).length = 200 ∧
    (r.games.filter fun g => decide ((show BG.State from g.initial).player = 1)).length = 200 := by
  obtain ⟨m, -, -, h2, h3, -⟩ := accounted (bg_ids pf) ho h
  refine ⟨fun g hg => ?_, records_half h2 fun g hg => ?_⟩
  · obtain ⟨u, u', hu⟩ := h3 g hg
    obtain ⟨d, hs, hd⟩ := bg_first hu
    rw [hs]
    exact ⟨rfl, hd⟩
  · obtain ⟨u, u', hu⟩ := h3 g hg
    obtain ⟨d, hs, hd⟩ := bg_first hu
    show (show BG.State from g.initial).player = _
    rw [hs]

/-- The initial games of a small match. -/
example : (initGames (G := BG.game .debug) .random .random 4 (List.range 4) (fun _ => none) demoTape).toOption.map
    (fun r => (List.range 5).map fun i => (r.1 i).map fun e => (show BG.State from e.1).player) =
    some [some (-1), some (-1), some 1, some 1, none] := by decide +kernel

/-! ## C55 -/

/-- The variables after `k` rounds of a match, finished or not. -/
inductive Reaches (p1 p2 : Player Fl) (cfg : Config) (n limit : Nat) (o : Orders) (t : Tape) :
    Nat → Match G → Tape → Prop
  | start {g : Nat → Option (G.S × Rec G)} {t' : Tape} :
      initGames p1.agent p2.agent n (List.range n) (fun _ => none) t = .ok (g, t') →
      Reaches p1 p2 cfg n limit o t 0 { games := g, played := [], wins1 := 0, wins2 := 0, steps := fun _ => [] } t'
  | round {k : Nat} {m m' : Match G} {u u' : Tape} : Reaches p1 p2 cfg n limit o t k m u → m.keys n ≠ [] →
      playRound p1.agent p2.agent (fun k => getActions p1 cfg (o.set1 k)) (fun k => getActions p2 cfg (o.set2 k)) limit
        (o.map k (m.keys n)) k m u = .ok (m', u') →
      Reaches p1 p2 cfg n limit o t (k + 1) m' u'

theorem reaches_inv (hid : Ids G) {R : G.S → Prop} (hcl : Closed G R) {p1 p2 : Player Fl} {cfg : Config} {A1 A2 : G.S → G.Mv → Prop}
    {n limit : Nat} {o : Orders} (ho : o.Valid) (hA1 : Answers R A1 (fun k => getActions p1 cfg (o.set1 k)))
    (hA2 : Answers R A2 (fun k => getActions p2 cfg (o.set2 k)))
    (hstart : ∀ i u s u', initState G n i u = .ok (s, u') → R s) {t : Tape} {k : Nat} {m : Match G} {u : Tape}
    (h : Reaches p1 p2 cfg n limit o t k m u) :
    ∃ init D, (∀ i, i < n → ∃ u u', initState G n i u = .ok (init i, u')) ∧
      Inv R p1.agent p2.agent A1 A2 n limit init k D m := by
  induction h with
  | start h =>
    obtain ⟨init, h1, h2⟩ := initGames_inv (R := R) (A1 := A1) (A2 := A2) (limit := limit) hid hstart h
    exact ⟨init, [], h1, h2⟩
  | round _ _ hr ih =>
    obtain ⟨init, D, h1, h2⟩ := ih
    obtain ⟨E, h3⟩ := playRound_inv hid hcl hA1 hA2 h2 (ho.map _ _) hr
    exact ⟨init, _, h1, h3⟩

/-- Every run which returns consists of such rounds. -/
theorem reaches_of_playRun {p1 p2 : Player Fl} {cfg : Config} {n limit : Nat} {o : Orders} {f : Nat} {t t' : Tape} {m : Match G}
    (h : playRun p1.agent p2.agent (fun k => getActions p1 cfg (o.set1 k)) (fun k => getActions p2 cfg (o.set2 k)) n limit
      o.map f t = .ok (m, t')) : ∃ k, k ≤ f ∧ Reaches p1 p2 cfg n limit o t k m t' := by
  obtain ⟨g, t1, h1, h2⟩ := M.bind_ok.1 h
  have hs : Reaches p1 p2 cfg n limit o t 0 { games := g, played := [], wins1 := 0, wins2 := 0, steps := fun _ => [] } t1 :=
    .start h1
  suffices ∀ f k (m1 : Match G) (u : Tape), Reaches p1 p2 cfg n limit o t k m1 u →
      playLoop p1.agent p2.agent (fun k => getActions p1 cfg (o.set1 k)) (fun k => getActions p2 cfg (o.set2 k)) n limit
        o.map f k m1 u = .ok (m, t') → ∃ k', k' ≤ k + f ∧ Reaches p1 p2 cfg n limit o t k' m t' by
    obtain ⟨k, h3, h4⟩ := this f 0 _ _ hs h2
    exact ⟨k, by omega, h4⟩
  intro f
  induction f with
  | zero =>
    intro k m1 u hr hl
    unfold playLoop at hl
    by_cases he : (m1.keys n).isEmpty
    · rw [if_pos he] at hl
      obtain ⟨rfl, rfl⟩ := Prod.mk.inj (Except.ok.inj hl)
      exact ⟨k, by omega, hr⟩
    · rw [if_neg he] at hl
      cases hl
  | succ f ih =>
    intro k m1 u hr hl
    unfold playLoop at hl
    by_cases he : (m1.keys n).isEmpty
    · rw [if_pos he] at hl
      obtain ⟨rfl, rfl⟩ := Prod.mk.inj (Except.ok.inj hl)
      exact ⟨k, by omega, hr⟩
    · rw [if_neg he] at hl
      obtain ⟨m2, t2, h5, h6⟩ := M.bind_ok.1 hl
      obtain ⟨k', h7, h8⟩ := ih (k + 1) m2 t2 (.round hr (by rw [List.isEmpty_iff] at he; exact he) h5) h6
      exact ⟨k', by omega, h8⟩

theorem inv_game {R : G.S → Prop} {a1 a2 : Agent} {A1 A2 : G.S → G.Mv → Prop} {n limit : Nat} {init : Nat → G.S} {k : Nat}
    {D : List Nat} {m : Match G} (h : Inv R a1 a2 A1 A2 n limit init k D m) {i : Nat} (hi : i < n) :
    ∃ s, GameOK A1 A2 init m i s ∧ (m.steps i).length ≤ k := by
  rcases (h.part i).1 hi with h1 | ⟨s, h1⟩
  · obtain ⟨⟨⟨s, h2⟩, -⟩, h3⟩ := h.done i h1
    exact ⟨s, h2, h3⟩
  · exact ⟨s, h1.toGameOK, h1.len.le⟩

/-- C55, for every game, number of games and round limit, at every moment of a match: each step is a legal move of the
state it is played in, or passes the turn; it was computed for this state by the player whose turn it is; the steps of
a game follow each other. -/
theorem C55_moves (hid : Ids G) {p1 p2 : Player Fl} {cfg : Config} {n limit : Nat} {o : Orders} (ho : o.Valid) {t u : Tape}
    {k : Nat} {m : Match G} (h : Reaches p1 p2 cfg n limit o t k m u) {i : Nat} (hi : i < n) :
    ∃ s0 s u0 u1, initState G n i u0 = .ok (s0, u1) ∧ Linked G s0 (m.steps i) s ∧
      ∀ st ∈ m.steps i, st.Fair ∧ st.Chosen (Picks p1 cfg) (Picks p2 cfg) := by
  obtain ⟨init, D, h1, h2⟩ := reaches_inv hid (closed_true G) ho (answers_picks ho.set1 _) (answers_picks ho.set2 _)
    (fun _ _ _ _ _ => trivial) h
  obtain ⟨s, h3, -⟩ := inv_game h2 hi
  obtain ⟨u0, u1, h4⟩ := h1 i hi
  exact ⟨_, s, u0, u1, h4, h3.link, fun st hst => ⟨h3.fair st hst, h3.chosen st hst⟩⟩

/-- C55 for TicTacToe. -/
theorem C55_tictactoe {pf : Profile} {p1 p2 : Player Fl} {cfg : Config} {o : Orders} (ho : o.Valid) {t u : Tape}
    {k : Nat} {m : Match (TTT.game pf)} (h : Reaches p1 p2 cfg 400 400 o t k m u) {i : Nat} (hi : i < 400) {st : Step (TTT.game pf)}
    (hst : st ∈ m.steps i) (hne : st.action ≠ (TTT.emptyMove : Nat)) :
    (st.action : Nat) ∈ TTT.getValidMoves st.before ∧ st.Chosen (Picks p1 cfg) (Picks p2 cfg) := by
  obtain ⟨-, -, -, -, -, -, h1⟩ := C55_moves (ttt_ids pf) ho h hi
  obtain ⟨h2, h3⟩ := h1 st hst
  obtain ⟨⟨ms, h4, h5⟩, -⟩ := h2.2 hne
  obtain rfl := Except.ok.inj (show (Except.ok (TTT.getValidMoves st.before) : Res (List Nat)) = .ok ms from h4)
  exact ⟨h5, h3⟩

/-- C55 for Backgammon. -/
theorem C55_backgammon {pf : Profile} {p1 p2 : Player Fl} {cfg : Config} {o : Orders} (ho : o.Valid) {t u : Tape}
    {k : Nat} {m : Match (BG.game pf)} (h : Reaches p1 p2 cfg 400 400 o t k m u) {i : Nat} (hi : i < 400) {st : Step (BG.game pf)}
    (hst : st ∈ m.steps i) (hne : st.action ≠ ([] : BG.Actions)) :
    (∃ ms, BG.getValidMoves pf st.before = .ok ms ∧ (st.action : BG.Actions) ∈ ms) ∧
      st.Chosen (Picks p1 cfg) (Picks p2 cfg) := by
  obtain ⟨-, -, -, -, -, -, h1⟩ := C55_moves (bg_ids pf) ho h hi
  obtain ⟨h2, h3⟩ := h1 st hst
  exact ⟨(h2.2 hne).1, h3⟩

/-- The steps of game 2 of the match above: player 2 (random) begins, the players alternate and player 2 wins. -/
example : (playRun (G := TTT.game .debug) .model .random (fun k => getActions netPlayer demoConfig (demoOrders.set1 k))
    (fun k => getActions randomPlayer demoConfig (demoOrders.set2 k)) 4 9 demoOrders.map 9 demoTape).toOption.map
    (fun r => (r.1.steps 2).map fun st => (st.first, (show Nat from st.action))) =
    some [(false, 6), (true, 8), (false, 3), (true, 7), (false, 5), (true, 4), (false, 1), (true, 2), (false, 0)] := by decide +kernel

/-! ## C56 -/

/-- C56 as stated: the record of a game contains a turn for every step of the game. -/
def C56_statement : Prop :=
  ∀ (pf : Profile) (rnd : Rat → Rat) (Fl : Floats) (p1 p2 : Player Fl) (cfg : Config) (n : Nat) (o : Orders) (f : Nat) (t t' : Tape)
    (r : PlayResult (TTT.game pf)) (m : Match (TTT.game pf)), o.Valid → Behind pf rnd p1 p2 cfg n 400 o f t t' r m →
    ∀ g ∈ r.games, g.turns.length = (m.steps g.key).length

/-- The turns are never recorded, though every game has at least one step. -/
theorem C56_empty (hid : Ids G) {pf : Profile} {rnd : Rat → Rat} {p1 p2 : Player Fl} {cfg : Config} {n limit : Nat}
    {o : Orders} (ho : o.Valid) {f : Nat} {t t' : Tape} {r : PlayResult G} {m : Match G}
    (h : Behind pf rnd p1 p2 cfg n limit o f t t' r m) : ∀ g ∈ r.games, g.turns = [] ∧ m.steps g.key ≠ [] := by
  obtain ⟨h1, h2⟩ := h
  obtain ⟨m', ⟨h3, -⟩, -, h5, -, h6⟩ := accounted hid ho (M.bind_ok.2 ⟨m, t', h1, M.lift_ok.2 ⟨h2, rfl⟩⟩)
  obtain ⟨rfl, -⟩ := Prod.mk.inj (Except.ok.inj (h1.symm.trans h3))
  intro g hg
  refine ⟨h6 g hg, ?_⟩
  obtain ⟨-, -, l', st, h7, -⟩ := h5.finished g hg
  rw [h7]
  simp

/-- What the record does contain: the initial state from which the game was played, and its players and winner.
Missing for the full statement: the turns; there it is false (`C56_refuted`). -/
theorem C56_partial (hid : Ids G) {pf : Profile} {rnd : Rat → Rat} {p1 p2 : Player Fl} {cfg : Config} {n limit : Nat}
    {o : Orders} (ho : o.Valid) {f : Nat} {t t' : Tape} {r : PlayResult G} {m : Match G}
    (h : Behind pf rnd p1 p2 cfg n limit o f t t' r m) : ∀ g ∈ r.games, (∃ s, Linked G g.initial (m.steps g.key) s) ∧
      g.player1 = p1.agent ∧ g.player2 = p2.agent ∧ g.winner = winnerAgent p1.agent p2.agent (outcome (m.steps g.key)) := by
  obtain ⟨h1, h2⟩ := h
  obtain ⟨m', ⟨h3, -⟩, -, h5, -⟩ := accounted hid ho (M.bind_ok.2 ⟨m, t', h1, M.lift_ok.2 ⟨h2, rfl⟩⟩)
  obtain ⟨rfl, -⟩ := Prod.mk.inj (Except.ok.inj (h1.symm.trans h3))
  exact fun g hg => ⟨(h5.finished g hg).1, (h5.players.2.2 g hg).1, (h5.players.2.2 g hg).2, h5.winner g hg⟩

/-! ## C57 -/

/-- C57 as stated, for random players: 400 rounds are enough. -/
def C57_statement : Prop :=
  ∀ (pf : Profile) (rnd : Rat → Rat) (Fl : Floats) (p1 p2 : Player Fl) (cfg : Config) (o : Orders) (t : Tape), o.Valid →
    p1.agent = .random → p2.agent = .random → play (G := BG.game pf) pf rnd p1 p2 cfg o 400 t ≠ .error .fuel

/-- If all dice show 6 and the random players happen to choose certain moves, both players are soon stuck and pass
forever: the match does not end, however many rounds are played. -/
theorem C57_endless (pf : Profile) (rnd : Rat → Rat) {p1 p2 : Player Fl} (h1 : p1.agent = .random) (h2 : p2.agent = .random)
    (cfg : Config) {o : Orders} (ho : o.Valid) (f : Nat) :
    play (G := BG.game .debug) pf rnd p1 p2 cfg o f Stuck.sixes = .error .fuel :=
  playN_endless Stuck.spot_forever (bg_ids _) (fun i _ => Stuck.spot_init 400 i) h1 h2 pf rnd cfg (by decide) ho f

/-- C57 is false: passing bypasses the round limit. -/
theorem C57_refuted : ¬ C57_statement := fun h =>
  h .debug (fun x => x) demoFloats randomPlayer randomPlayer demoConfig demoOrders Stuck.sixes demoOrders_valid rfl rfl
    (C57_endless _ _ rfl rfl _ demoOrders_valid _)

/-- Beyond the round limit a game consists of passes, apart from its last step; so a game with a move in round 400 ends
there, and one without ends with its next move.  Missing for the full statement: games in which both players pass
around the round limit and later; there it is false (`C57_refuted`). -/
theorem C57_partial (hid : Ids G) {p1 p2 : Player Fl} {cfg : Config} {n limit : Nat} {o : Orders} (ho : o.Valid) {t u : Tape}
    {k : Nat} {m : Match G} (h : Reaches p1 p2 cfg n limit o t k m u) {i : Nat} (hi : i < n) {j : Nat} (hj : limit ≤ j + 1)
    (hl : j + 1 < (m.steps i).length) : ∃ st, (m.steps i)[j]? = some st ∧ st.action = G.emptyMove := by
  obtain ⟨init, D, h1, h2⟩ := reaches_inv hid (closed_true G) ho (answers_picks ho.set1 _) (answers_picks ho.set2 _)
    (fun _ _ _ _ _ => trivial) h
  have hlt : j < (m.steps i).length := by omega
  refine ⟨_, List.getElem?_eq_getElem hlt, ?_⟩
  rcases (h2.part i).1 hi with h3 | ⟨s, h3⟩
  · obtain ⟨⟨-, l', st, h4, h5, -⟩, -⟩ := h2.done i h3
    by_contra hne
    have hj' : j < l'.length := by
      rw [h4, List.length_append, List.length_singleton] at hl
      omega
    have := (h5 j _ (by
      rw [← List.getElem?_append_left (l₂ := [st]) hj', ← h4]
      exact List.getElem?_eq_getElem hlt) hne).2
    omega
  · exact h3.passes j hj (List.getElem?_eq_getElem hlt)

/-- Unfinished games have taken part in every round, finished ones in no more rounds than were played. -/
theorem C57_rounds (hid : Ids G) {p1 p2 : Player Fl} {cfg : Config} {n limit : Nat} {o : Orders} (ho : o.Valid) {t u : Tape}
    {k : Nat} {m : Match G} (h : Reaches p1 p2 cfg n limit o t k m u) {i : Nat} (hi : i < n) :
    (m.steps i).length ≤ k ∧ ((m.games i).isSome → (m.steps i).length = k) := by
  obtain ⟨init, D, h1, h2⟩ := reaches_inv hid (closed_true G) ho (answers_picks ho.set1 _) (answers_picks ho.set2 _)
    (fun _ _ _ _ _ => trivial) h
  obtain ⟨-, -, h3⟩ := inv_game h2 hi
  refine ⟨h3, fun hs => ?_⟩
  rcases (h2.part i).1 hi with h4 | ⟨s, h4⟩
  · rw [h2.gone i h4] at hs
    cases hs
  · exact h4.len

theorem going_init {limit : Nat} {l : List (Step G)} {st : Step G} (h : Going limit (l ++ [st])) :
    Going limit l ∧ (st.action ≠ G.emptyMove → G.winner st.after = none) := by
  constructor
  · intro k x hk
    refine h k x ?_
    have : k < l.length := by
      by_contra hc
      rw [List.getElem?_eq_none (by omega)] at hk
      cases hk
    rw [List.getElem?_append_left this]
    exact hk
  · intro hne
    exact (h l.length st (by simp) hne).1

/-- All states of an unfinished game are in a closed set. -/
theorem linked_ok {R : G.S → Prop} (hcl : Closed G R) {limit : Nat} {s0 s : G.S} {l : List (Step G)} (h : Linked G s0 l s)
    (h0 : R s0) (hf : ∀ st ∈ l, st.Fair) (hg : Going limit l) : R s ∧ ∀ st ∈ l, R st.before := by
  induction h with
  | nil => exact ⟨h0, by simp⟩
  | snoc st h1 h2 ih =>
    obtain ⟨h3, h4⟩ := going_init hg
    obtain ⟨h5, h6⟩ := ih (fun x hx => hf x (List.mem_append_left _ hx)) h3
    have h7 := hf st (by simp)
    rw [← h2] at h5
    constructor
    · by_cases ha : st.action = G.emptyMove
      · obtain ⟨t, t', h8⟩ := h7.1 ha
        exact hcl.skip _ _ _ _ h5 h8
      · obtain ⟨⟨ms, h8, h9⟩, h10⟩ := h7.2 ha
        exact hcl.move _ _ _ _ h5 h8 h9 h10 (h4 ha)
    · intro x hx
      rcases List.mem_append.1 hx with hx | hx
      · exact h6 x hx
      · rw [List.mem_singleton.1 hx]
        exact h5

/-- If no player is ever without a legal move, the round limit holds: the match is over after `limit` rounds. -/
theorem C57_unstuck {R : G.S → Prop} (hid : Ids G) (hcl : Closed G R) (hr : Runs G R) (hb : Begins G R)
    (hmv : ∀ s ms, R s → G.moves s = .ok ms → ms ≠ [] ∧ G.emptyMove ∉ ms)
    {a1 a2 : Agent} {acts1 acts2 : Acts G} (hA1 : Able R acts1) (hA2 : Able R acts2) {n limit : Nat} (hl : limit ≠ 0)
    {order : Nat → List Nat → List Nat} (ho : ∀ k l, (order k l).Perm l) (t : Tape) :
    ∃ m t', playRun a1 a2 acts1 acts2 n limit order limit t = .ok (m, t') := by
  refine playRun_ends hid hcl hr hb hA1 hA2 ho limit ?_ t
  rintro init m i s ⟨u, u', h0⟩ hlive
  have hR0 : R (init i) := by
    obtain ⟨s1, u1, h1, h2⟩ := hb n i u
    rw [h0] at h1
    rw [(Prod.mk.inj (Except.ok.inj h1)).1]
    exact h2
  have hlt : limit - 1 < (m.steps i).length := by rw [hlive.len]; omega
  have hst := List.getElem?_eq_getElem hlt
  have hmem := List.getElem_mem hlt
  have hpass := hlive.passes (limit - 1) (by omega) hst
  have hc := (hlive.chosen _ hmem).2
  have hleg : Legal (m.steps i)[limit - 1].before (m.steps i)[limit - 1].action := by
    split at hc <;> exact hc
  obtain ⟨ms, h3, h4⟩ := hleg
  obtain ⟨h5, h6⟩ := hmv _ ms ((linked_ok hcl hlive.link hR0 hlive.fair hlive.going).2 _ hmem) h3
  rcases h4 with h4 | ⟨h4, -⟩
  · rw [hpass] at h4
    exact h6 h4
  · exact h5 h4

/-! ## C58 -/

/-- A player that can play a game of `N` codes: random, or a network with a valid configuration, or (if allowed) the tree
search. -/
def Ready (N : Nat) (trees : Bool) (cfg : Config) (pl : Player Fl) : Prop :=
  pl.agent = .random ∨
  (pl.agent = .model ∧ (∃ net, pl.net = some net ∧ net.alphaOk = true) ∧ PwWarm N cfg.pw ∧ cfg.iterations ≠ 0) ∨
  (trees = true ∧ pl.agent = .mcts ∧ cfg.iterations ≠ 0)

theorem ttt_ready {pf : Profile} {cfg : Config} {pl : Player Fl} (h : Ready 9 true cfg pl) {order : Nat → Nat → List Nat}
    (ho : ∀ k n, (order k n).Perm (List.range n)) :
    Able TttLive (fun k => getActions (G := TTT.game pf) pl cfg (order k)) := by
  rcases h with h | ⟨h1, ⟨net, h2, h3⟩, h4, h5⟩ | ⟨-, h1, h2⟩
  · exact able_sub (fun s hs => hs.1) (able_random (ttt_safe pf) h cfg ho)
  · exact able_sub (fun s hs => hs.1) (able_model (ttt_safeNet pf) (ttt_coded pf) h3 h1 h2 h4 h5 ho)
  · exact able_mcts (ttt_safe pf) (fun s _ hw he => ttt_not_stuck s hw (Except.ok.inj he)) h1 h2 ho

theorem bg_ready {pf : Profile} {cfg : Config} {pl : Player Fl} (h : Ready 1352 false cfg pl) {order : Nat → Nat → List Nat}
    (ho : ∀ k n, (order k n).Perm (List.range n)) :
    Able (fun s : BG.State => Spec.StateOK s) (fun k => getActions (G := BG.game pf) pl cfg (order k)) := by
  rcases h with h | ⟨h1, ⟨net, h2, h3⟩, h4, h5⟩ | ⟨h1, -⟩
  · exact able_random (bg_safe pf) h cfg ho
  · exact able_model (bg_safeNet pf) (bg_coded pf) h3 h1 h2 h4 h5 ho
  · cases h1

theorem moves_after {g : TTT.State} (hp : g.player ≠ 0) (p : Int) {a : Nat} (ha : a ∈ TTT.getValidMoves g) :
    (TTT.getValidMoves { g with board := g.board.set a g.player ((T.mem_moves g a).1 ha).1, player := p }).length + 1 =
      (TTT.getValidMoves g).length := by
  have h9 := ((T.mem_moves g a).1 ha).1
  have he : TTT.getValidMoves { g with board := g.board.set a g.player h9, player := p } = (TTT.getValidMoves g).erase a := by
    have hn : (TTT.getValidMoves g).Nodup := List.nodup_range.filter _
    rw [hn.erase_eq_filter]
    unfold TTT.getValidMoves
    rw [List.filter_filter]
    refine List.filter_congr fun i _ => ?_
    rw [T.cell_set g p h9 i]
    by_cases hi : i = a
    · simp [hi, hp]
    · simp [hi]
  rw [he, List.length_erase_of_mem ha]
  have := List.length_pos_of_mem ha
  omega

/-- An unfinished TicTacToe game has as many steps as there are marked cells. -/
theorem ttt_count {pf : Profile} {limit : Nat} {s0 s : TTT.State} {l : List (Step (TTT.game pf))}
    (h : Linked (TTT.game pf) s0 l s) (h0 : TttLive s0) (hf : ∀ st ∈ l, st.Fair) (hc : ∀ st ∈ l, st.Chosen Legal Legal)
    (hg : Going limit l) : (TTT.getValidMoves s0).length = l.length + (TTT.getValidMoves s).length := by
  induction h with
  | nil => simp
  | snoc st h1 h2 ih =>
    have hstay := going_init hg
    have hf' := fun x hx => hf x (List.mem_append_left _ hx)
    have hR := (linked_ok (ttt_live_closed pf) h1 h0 hf' hstay.1).1
    have ih := ih hf' (fun x hx => hc x (List.mem_append_left _ hx)) hstay.1
    rw [ih, List.length_append, List.length_singleton]
    rw [← h2] at hR ⊢
    have hleg : Legal st.before st.action := by
      have := (hc st (by simp)).2
      split at this <;> exact this
    obtain ⟨ms, h3, h4⟩ := hleg
    obtain rfl := Except.ok.inj (show (Except.ok (TTT.getValidMoves st.before) : Res (List Nat)) = .ok ms from h3)
    have hmem : st.action ∈ TTT.getValidMoves st.before := by
      rcases h4 with h4 | ⟨h4, -⟩
      · exact h4
      · exact absurd h4 (ttt_not_stuck _ hR.2)
    have h9 := ((T.mem_moves _ _).1 hmem).1
    have hne : st.action ≠ (TTT.game pf).emptyMove := by
      intro he
      rw [he] at h9
      exact absurd (show TTT.emptyMove < 9 from h9) (by decide)
    obtain ⟨-, u, u', h5⟩ := (hf st (by simp)).2 hne
    have h6 := (M.lift_ok.1 (show M.lift (TTT.applyMove pf st.before st.action) u = .ok (st.after, u') from h5)).1
    rw [T.apply_ok pf hR.1.symm h9] at h6
    have h7 := moves_after (g := st.before) (by rcases hR.1 with h | h <;> rw [h] <;> decide) (- st.before.player) hmem
    rw [← Except.ok.inj h6]
    omega

/-- No TicTacToe game is unfinished after nine rounds. -/
theorem ttt_nine {pf : Profile} {a1 a2 : Agent} {limit n : Nat} (init : Nat → TTT.State) (m : Match (TTT.game pf)) (i : Nat) (s : TTT.State)
    (h0 : ∃ u u', initState (TTT.game pf) n i u = .ok (init i, u')) :
    ¬ Live (G := TTT.game pf) TttLive a1 a2 Legal Legal limit init m 9 i s := by
  intro h
  obtain ⟨u, u', h0⟩ := h0
  have hR0 : TttLive (init i) := by
    obtain ⟨s1, u1, h1, h2⟩ := ttt_live_begins pf n i u
    rw [h0] at h1
    rw [(Prod.mk.inj (Except.ok.inj h1)).1]
    exact h2
  have h1 := ttt_count h.link hR0 h.fair h.chosen h.going
  rw [h.len] at h1
  have h2 : (TTT.getValidMoves (init i)).length = 9 := by
    rw [ttt_first h0]
    show (TTT.getValidMoves TTT.new).length = 9
    decide
  exact ttt_not_stuck s h.ok.2 (List.length_eq_zero_iff.1 (by omega))

/-- A TicTacToe match returns after at most nine rounds, for all kinds of players, any number of games and any round
limit. -/
theorem ttt_returns (pf pf' : Profile) (rnd : Rat → Rat) {p1 p2 : Player Fl} {cfg : Config} (h1 : Ready 9 true cfg p1)
    (h2 : Ready 9 true cfg p2) (n limit : Nat) {o : Orders} (ho : o.Valid) (t : Tape) :
    ∃ r t', playN (G := TTT.game pf) pf' rnd p1 p2 cfg n limit o 9 t = .ok (r, t') := by
  obtain ⟨m, t', h⟩ := playRun_ends (ttt_ids pf) (ttt_live_closed pf) (ttt_live_runs pf) (ttt_live_begins pf)
    (ttt_ready h1 ho.set1) (ttt_ready h2 ho.set2) (n := n) (limit := limit) (a1 := p1.agent) (a2 := p2.agent) ho.map 9
    (fun init m i s h0 => ttt_nine init m i s h0) t
  obtain ⟨init, k, D, -, h4, h5, -⟩ := playRun_inv (ttt_ids pf) (closed_true _) (answers_picks ho.set1 _) (answers_picks ho.set2 _)
    (fun _ _ _ _ _ => trivial) ho.map h
  obtain ⟨r, h6, -⟩ := result_of_inv h4 h5 pf' rnd
  exact ⟨r, t', M.bind_ok.2 ⟨m, t', h, M.lift_ok.2 ⟨h6, rfl⟩⟩⟩

/-- C58: a TicTacToe match of random players returns after at most nine rounds. -/
theorem C58_random (pf : Profile) (rnd : Rat → Rat) {p1 p2 : Player Fl} (h1 : p1.agent = .random) (h2 : p2.agent = .random)
    (cfg : Config) {o : Orders} (ho : o.Valid) (t : Tape) :
    ∃ r t', play (G := TTT.game pf) pf rnd p1 p2 cfg o 9 t = .ok (r, t') :=
  ttt_returns pf pf rnd (.inl h1) (.inl h2) 400 400 ho t

/-- More than C58: the same for network players and tree search players. -/
theorem C58_players (pf : Profile) (rnd : Rat → Rat) {p1 p2 : Player Fl} {cfg : Config} (h1 : Ready 9 true cfg p1)
    (h2 : Ready 9 true cfg p2) {o : Orders} (ho : o.Valid) (t : Tape) :
    ∃ r t', play (G := TTT.game pf) pf rnd p1 p2 cfg o 9 t = .ok (r, t') :=
  ttt_returns pf pf rnd h1 h2 400 400 ho t

/-- Nine rounds can be needed. -/
example : (playN (G := TTT.game .debug) .debug (fun x => x) randomPlayer randomPlayer demoConfig 1 400 demoOrders 8
    (fun k => if k = 3 ∨ k = 6 then 1 else 0)).toOption.isSome = false := by decide +kernel

/-- C56 is false: see `C56_empty`. -/
theorem C56_refuted : ¬ C56_statement := by
  intro h
  obtain ⟨r, t', h1⟩ := ttt_returns .debug .debug (fun x => x) (p1 := randomPlayer) (p2 := randomPlayer) (cfg := demoConfig)
    (.inl rfl) (.inl rfl) 1 400 demoOrders_valid demoTape
  obtain ⟨m, h2, -, h3, -⟩ := accounted (ttt_ids .debug) demoOrders_valid h1
  have hlen : r.games.length = 1 := by
    have := h3.keys.length_eq
    rwa [List.length_map, List.length_range] at this
  obtain ⟨g, hg⟩ := List.exists_mem_of_length_pos (by omega : 0 < r.games.length)
  have h4 := h _ _ _ _ _ _ _ _ _ _ _ r m demoOrders_valid h2 g hg
  obtain ⟨h5, h6⟩ := C56_empty (ttt_ids .debug) demoOrders_valid h2 g hg
  rw [h5] at h4
  exact h6 (List.length_eq_zero_iff.1 h4.symm)

/-! ## C67 -/

theorem bg_no_panic (pf : Profile) (rnd : Rat → Rat) {p1 p2 : Player Fl} {cfg : Config} (h1 : Ready 1352 false cfg p1)
    (h2 : Ready 1352 false cfg p2) (n limit : Nat) {o : Orders} (ho : o.Valid) (f : Nat) (t : Tape) :
    (∃ r t', playN (G := BG.game pf) pf rnd p1 p2 cfg n limit o f t = .ok (r, t')) ∨
    playN (G := BG.game pf) pf rnd p1 p2 cfg n limit o f t = .error .fuel := by
  rcases playRun_ok (bg_ids pf) (closed_of_safe (bg_safe pf)) (runs_of_safe (bg_safe pf)) (bg_begins pf)
    (bg_ready h1 ho.set1) (bg_ready h2 ho.set2) (n := n) (limit := limit) (a1 := p1.agent) (a2 := p2.agent) ho.map f t with
    ⟨m, t', h⟩ | ⟨h, -⟩
  · left
    obtain ⟨init, k, D, -, h4, h5, -⟩ := playRun_inv (bg_ids pf) (closed_true _) (answers_picks ho.set1 _) (answers_picks ho.set2 _)
      (fun _ _ _ _ _ => trivial) ho.map h
    obtain ⟨r, h6, -⟩ := result_of_inv h4 h5 pf rnd
    exact ⟨r, t', M.bind_ok.2 ⟨m, t', h, M.lift_ok.2 ⟨h6, rfl⟩⟩⟩
  · exact .inr (M.bind_err h)

theorem bg_going (pf : Profile) (rnd : Rat → Rat) {p1 p2 : Player Fl} {cfg : Config} (h1 : Ready 1352 false cfg p1)
    (h2 : Ready 1352 false cfg p2) (n limit : Nat) {o : Orders} (ho : o.Valid) (f : Nat) (t : Tape)
    (h : playN (G := BG.game pf) pf rnd p1 p2 cfg n limit o f t = .error .fuel) :
    ∃ (s0 s : BG.State) (l : List (Step (BG.game pf))), Linked (BG.game pf) s0 l s ∧ l.length = f ∧ (∀ st ∈ l, st.Fair) ∧
      ∀ j st, l[j]? = some st → limit ≤ j + 1 → BG.getValidMoves pf st.before = .ok [] := by
  rcases playRun_ok (bg_ids pf) (closed_of_safe (bg_safe pf)) (runs_of_safe (bg_safe pf)) (bg_begins pf)
    (bg_ready h1 ho.set1) (bg_ready h2 ho.set2) (n := n) (limit := limit) (a1 := p1.agent) (a2 := p2.agent) ho.map f t with
    ⟨m, t', h3⟩ | ⟨-, init, D, m, h3, h4, h5⟩
  · obtain ⟨init, k, D, -, h4, h5, -⟩ := playRun_inv (bg_ids pf) (closed_true _) (answers_picks ho.set1 _) (answers_picks ho.set2 _)
      (fun _ _ _ _ _ => trivial) ho.map h3
    obtain ⟨r, h6, -⟩ := result_of_inv h4 h5 pf rnd
    have : playN (G := BG.game pf) pf rnd p1 p2 cfg n limit o f t = .ok (r, t') := M.bind_ok.2 ⟨m, t', h3, M.lift_ok.2 ⟨h6, rfl⟩⟩
    rw [this] at h
    cases h
  · obtain ⟨i, hi⟩ := List.exists_mem_of_ne_nil _ h5
    obtain ⟨s, hl⟩ := (h4.mem_keys i).1 hi
    have hin : i < n := List.mem_range.1 (List.mem_of_mem_filter hi)
    obtain ⟨u, u', h6⟩ := h3 i hin
    have hR0 : Spec.StateOK (init i) := by
      obtain ⟨s1, u1, h7, h8⟩ := bg_begins pf n i u
      rw [h6] at h7
      rw [(Prod.mk.inj (Except.ok.inj h7)).1]
      exact h8
    refine ⟨init i, s, m.steps i, hl.link, hl.len, hl.fair, ?_⟩
    intro j st hst hj
    have hpass := hl.passes j hj hst
    have hmem := List.mem_of_getElem? hst
    have hRb := (linked_ok (closed_of_safe (bg_safe pf)) hl.link hR0 hl.fair hl.going).2 st hmem
    have hleg : Legal st.before st.action := by
      have := (hl.chosen st hmem).2
      split at this <;> exact this
    obtain ⟨ms, h7, h8⟩ := hleg
    rcases h8 with h8 | ⟨rfl, -⟩
    · rw [hpass] at h8
      exact absurd rfl (BG.returned hRb h7 h8).1
    · exact h7

/-- C67 for Backgammon: a match of random and network players does not panic; it returns, or it is still going on. -/
theorem C67_backgammon (pf : Profile) (rnd : Rat → Rat) {p1 p2 : Player Fl} {cfg : Config} (h1 : Ready 1352 false cfg p1)
    (h2 : Ready 1352 false cfg p2) {o : Orders} (ho : o.Valid) (f : Nat) (t : Tape) :
    (∃ r t', play (G := BG.game pf) pf rnd p1 p2 cfg o f t = .ok (r, t')) ∨
    play (G := BG.game pf) pf rnd p1 p2 cfg o f t = .error .fuel :=
  bg_no_panic pf rnd h1 h2 400 400 ho f t

/-- If a Backgammon match is still going on after `f` rounds, it contains a game with `f` steps in which, from round
400 on, both players have passed because they had no legal move. -/
theorem C67_going (pf : Profile) (rnd : Rat → Rat) {p1 p2 : Player Fl} {cfg : Config} (h1 : Ready 1352 false cfg p1)
    (h2 : Ready 1352 false cfg p2) {o : Orders} (ho : o.Valid) (f : Nat) (t : Tape)
    (h : play (G := BG.game pf) pf rnd p1 p2 cfg o f t = .error .fuel) :
    ∃ (s0 s : BG.State) (l : List (Step (BG.game pf))), Linked (BG.game pf) s0 l s ∧ l.length = f ∧ (∀ st ∈ l, st.Fair) ∧
      ∀ j st, l[j]? = some st → 400 ≤ j + 1 → BG.getValidMoves pf st.before = .ok [] :=
  bg_going pf rnd h1 h2 400 400 ho f t h

/-- C67 for TicTacToe: matches of all kinds of players return. -/
theorem C67_tictactoe (pf : Profile) (rnd : Rat → Rat) {p1 p2 : Player Fl} {cfg : Config} (h1 : Ready 9 true cfg p1)
    (h2 : Ready 9 true cfg p2) {o : Orders} (ho : o.Valid) (t : Tape) :
    ∃ r t', play (G := TTT.game pf) pf rnd p1 p2 cfg o 9 t = .ok (r, t') :=
  C58_players pf rnd h1 h2 ho t

/-- A player to which C67 applies. -/
example : Ready 1352 false demoConfig netPlayer := .inr (.inl ⟨rfl, ⟨demoNet, rfl, rfl⟩, ⟨⟨rfl, fun _ h => h⟩, fun _ h _ => h⟩, by decide⟩)

/-! ## C52 -/

theorem rounding_id : Rounding (fun x => x) := ⟨fun _ _ h => h, fun x _ _ => ⟨by norm_num, by norm_num⟩⟩

theorem winrate_ge {rnd : Rat → Rat} (h : Rounding rnd) {w : Nat} (hw : w ≤ 400) :
    rnd (w / (400 : Nat)) ≥ rnd (55 / 100) ↔ 220 ≤ w := by
  constructor
  · intro h1
    by_contra hc
    have h2 : (w : Rat) ≤ 219 := by exact_mod_cast (by omega : w ≤ 219)
    have h3 : rnd (w / (400 : Nat)) ≤ rnd (219 / 400) := h.mono _ _ (by push_cast; linarith)
    have h4 := (h.err (219 / 400) (by norm_num) (by norm_num)).1
    have h5 := (h.err (55 / 100) (by norm_num) (by norm_num)).2
    have : (219 / 400 : Rat) + 1 / 2 ^ 53 < 55 / 100 - 1 / 2 ^ 53 := by norm_num
    linarith
  · intro h1
    refine h.mono _ _ ?_
    have : (220 : Rat) ≤ w := by exact_mod_cast h1
    push_cast
    linarith

theorem winrate_le {rnd : Rat → Rat} (h : Rounding rnd) {w : Nat} (hw : w ≤ 400) :
    rnd (w / (400 : Nat)) ≤ rnd (45 / 100) ↔ w ≤ 180 := by
  constructor
  · intro h1
    by_contra hc
    have h2 : (181 : Rat) ≤ w := by exact_mod_cast (by omega : 181 ≤ w)
    have h3 : rnd (181 / 400) ≤ rnd (w / (400 : Nat)) := h.mono _ _ (by push_cast; linarith)
    have h4 := (h.err (181 / 400) (by norm_num) (by norm_num)).2
    have h5 := (h.err (45 / 100) (by norm_num) (by norm_num)).1
    have : (45 / 100 : Rat) + 1 / 2 ^ 53 < 181 / 400 - 1 / 2 ^ 53 := by norm_num
    linarith
  · intro h1
    refine h.mono _ _ ?_
    have : (w : Rat) ≤ 180 := by exact_mod_cast h1
    push_cast
    linarith

/-- Games of a match won by player 1 (`-1`). -/
def won (m : Match G) : Nat := ((List.range 400).filter fun i => decide (outcome (m.steps i) = -1)).length

/-- The verdict on two models. -/
theorem C52_verdict (hid : Ids G) {pf : Profile} {rnd : Rat → Rat} (hr : Rounding rnd) {cfg : Config} {o : Orders} (ho : o.Valid) {f : Nat}
    {self other : Net Fl} {t t' : Tape} {x : Option Nat} (h : playVsModel pf rnd cfg o f G self other t = .ok (x, t')) :
    ∃ r m, Behind (G := G) pf rnd { agent := .model, net := some self } { agent := .model, net := some other } cfg 400 400 o f t t' r m ∧
      x = if 220 ≤ won m then some 1 else if won m ≤ 180 then some 2 else none := by
  obtain ⟨r, t1, h1, h2⟩ := M.bind_ok.1 h
  obtain ⟨rfl, rfl⟩ := Prod.mk.inj (Except.ok.inj h2)
  obtain ⟨m, h3, h4, h5, -⟩ := accounted hid ho h1
  have hw : r.wins1 = won m := h5.wins1
  have hle : won m ≤ 400 := by
    have := h5.total
    omega
  refine ⟨r, m, h3, ?_⟩
  rw [h4, hw]
  by_cases c1 : 220 ≤ won m
  · rw [if_pos ((winrate_ge hr hle).2 c1), if_pos c1]
  · rw [if_neg (fun hc => c1 ((winrate_ge hr hle).1 hc)), if_neg c1]
    by_cases c2 : won m ≤ 180
    · rw [if_pos ((winrate_le hr hle).2 c2), if_pos c2]
    · rw [if_neg (fun hc => c2 ((winrate_le hr hle).1 hc)), if_neg c2]

/-- C52: an existing best model is replaced exactly if the new model won at least 220 of the 400 games. -/
theorem C52_gate (hid : Ids G) {pf : Profile} {rnd : Rat → Rat} (hr : Rounding rnd) {cfg : Config} {o : Orders} (ho : o.Valid) {f : Nat}
    {self best : Net Fl} {t t' : Tape} {x : Option (Net Fl)} (h : playVsBest pf rnd cfg o f G self (some best) t = .ok (x, t')) :
    ∃ r m, Behind (G := G) pf rnd { agent := .model, net := some self } { agent := .model, net := some best } cfg 400 400 o f t t' r m ∧
      x = if 220 ≤ won m then some self else some best := by
  obtain ⟨y, t1, h1, h2⟩ := M.bind_ok.1 h
  obtain ⟨r, m, h3, h4⟩ := C52_verdict hid hr ho h1
  subst h4
  obtain ⟨b, t2, h5, h6⟩ := M.bind_ok.1 h2
  by_cases c1 : 220 ≤ won m
  · rw [if_pos c1] at h5
    obtain ⟨rfl, rfl⟩ := Prod.mk.inj (Except.ok.inj h5)
    obtain ⟨rfl, rfl⟩ := Prod.mk.inj (Except.ok.inj h6)
    exact ⟨r, m, h3, by rw [if_pos c1]; rfl⟩
  · rw [if_neg c1] at h5
    have : b = false ∧ t1 = t2 := by
      by_cases c2 : won m ≤ 180
      · rw [if_pos c2] at h5
        obtain ⟨rfl, rfl⟩ := Prod.mk.inj (Except.ok.inj h5)
        exact ⟨rfl, rfl⟩
      · rw [if_neg c2] at h5
        obtain ⟨rfl, rfl⟩ := Prod.mk.inj (Except.ok.inj h5)
        exact ⟨rfl, rfl⟩
    obtain ⟨rfl, rfl⟩ := this
    obtain ⟨rfl, rfl⟩ := Prod.mk.inj (Except.ok.inj h6)
    exact ⟨r, m, h3, by rw [if_neg c1]; rfl⟩

/-- C52: the best model is created if there is none. -/
theorem C52_create (pf : Profile) (rnd : Rat → Rat) (cfg : Config) (o : Orders) (f : Nat) (G : Game) (self : Net Fl) (t : Tape) :
    playVsBest pf rnd cfg o f G self none t = .ok (some self, t) := rfl

theorem verdict_of {pf : Profile} {rnd : Rat → Rat} {cfg : Config} {o : Orders} {f : Nat} {self other : Net Fl} {t t' : Tape}
    {r : PlayResult G} (h : play pf rnd { agent := .model, net := some self } { agent := .model, net := some other } cfg o f t =
      .ok (r, t')) :
    ∃ x, playVsModel pf rnd cfg o f G self other t = .ok (x, t') ∧ (x = some 1 ∨ x = some 2 ∨ x = none) := by
  unfold playVsModel
  rw [M.bind_eq h]
  refine ⟨_, rfl, ?_⟩
  split
  · exact .inl rfl
  · split
    · exact .inr (.inl rfl)
    · exact .inr (.inr rfl)

theorem gate_of {pf : Profile} {rnd : Rat → Rat} {cfg : Config} {o : Orders} {f : Nat} {self best : Net Fl} {t t' : Tape}
    {x : Option Nat} (h : playVsModel pf rnd cfg o f G self best t = .ok (x, t')) (hx : x = some 1 ∨ x = some 2 ∨ x = none) :
    ∃ y, playVsBest pf rnd cfg o f G self (some best) t = .ok (y, t') := by
  unfold playVsBest
  simp only
  rw [M.bind_eq h]
  rcases hx with rfl | rfl | rfl <;> exact ⟨_, rfl⟩

/-- For TicTacToe the gate always decides. -/
theorem C52_tictactoe (pf : Profile) {rnd : Rat → Rat} (hr : Rounding rnd) {cfg : Config} {o : Orders} (ho : o.Valid)
    {self best : Net Fl} (h1 : self.alphaOk = true) (h2 : best.alphaOk = true) (hpw : PwWarm 9 cfg.pw) (hi : cfg.iterations ≠ 0)
    (t : Tape) : ∃ r m t', Behind (G := TTT.game pf) pf rnd { agent := .model, net := some self }
        { agent := .model, net := some best } cfg 400 400 o 9 t t' r m ∧
      playVsBest pf rnd cfg o 9 (TTT.game pf) self (some best) t = .ok (if 220 ≤ won m then some self else some best, t') := by
  obtain ⟨r, t', h3⟩ := C58_players (Fl := Fl) pf rnd (p1 := { agent := .model, net := some self })
    (p2 := { agent := .model, net := some best }) (cfg := cfg) (.inr (.inl ⟨rfl, ⟨self, rfl, h1⟩, hpw, hi⟩))
    (.inr (.inl ⟨rfl, ⟨best, rfl, h2⟩, hpw, hi⟩)) ho t
  obtain ⟨x, h5, h6⟩ := verdict_of h3
  obtain ⟨y, h8⟩ := gate_of h5 h6
  obtain ⟨r', m, h9, h10⟩ := C52_gate (ttt_ids pf) hr ho h8
  exact ⟨r', m, t', h9, by rw [h8, h10]⟩

end DieE.Props.V
