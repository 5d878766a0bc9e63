import Verif.Versus.Report
import Verif.Versus.ReportSpec
import Verif.Props.Pretty
import Verif.Props.Versus

/-!
# C101: the printed result of a match
-/

namespace DieE.Props.Rp
open DieE DieE.Versus DieE.Text DieE.Fp
open DieE.Train (Name digits)
variable {G : Game} {Fl : Mcts.Floats}

/-- The numbers of wins out of 400 for which the printed percentage is not exact. -/
def inexact : List Nat :=
  [7, 14, 28, 29, 55, 56, 57, 58] ++ List.range' 109 8 ++ [201, 203, 205, 207, 218, 220, 222, 224, 226, 228, 230, 232] ++
    [243, 245, 247, 249, 251, 253, 255]

/-- What is printed for `k` wins. -/
def shown (k : Nat) : Name := display64 (percentage (rnd f64 ((k : Rat) / (400 : Nat))))

/-- The percentage shown for `k` wins is right. -/
def shownOk (k : Nat) : Bool :=
  match decimalValue (shown k) with
  | some v => decide (|v - (k : Rat) / 4| ≤ 1 / 10 ^ 13) && (decide (v = (k : Rat) / 4) == decide (k ∉ inexact)) &&
    decide ('\n' ∉ shown k)
  | none => false

set_option maxRecDepth 100000 in
theorem shown_all : (List.range 401).all shownOk = true := by decide +kernel

theorem shown_ok {k : Nat} (hk : k ≤ 400) : '\n' ∉ shown k ∧ ∃ v, decimalValue (shown k) = some v ∧
    |v - (k : Rat) / 4| ≤ 1 / 10 ^ 13 ∧ (v = (k : Rat) / 4 ↔ k ∉ inexact) := by
  have h := List.all_eq_true.1 shown_all k (List.mem_range.2 (by omega))
  unfold shownOk at h
  split at h
  case h_1 v hv =>
    rw [Bool.and_eq_true, Bool.and_eq_true, decide_eq_true_iff, beq_iff_eq, decide_eq_decide, decide_eq_true_iff] at h
    exact ⟨h.2, v, hv, h.1⟩
  case h_2 => cases h

theorem natValue_digits (n : Nat) : natValue (digits n) = some n := by
  unfold natValue
  rw [if_pos ⟨digits_ne_nil n, List.all_eq_true.2 fun c hc => digits_isDigit hc⟩]
  simp [digits, Nat.ofDigitChars_toDigits]

theorem split_ne_nil (c : Char) (l : Name) : split c l ≠ [] := by
  cases l with
  | nil => simp [split]
  | cons x l =>
    rw [split]
    split
    · simp
    · split <;> simp

theorem newline_digits (n : Nat) : '\n' ∉ digits n := fun h => by
  have := digits_isDigit h
  revert this
  decide

theorem newline_agent (a : Agent) : '\n' ∉ a.name := by cases a <;> decide

/-- What a result says: the players, the counts and the percentage of wins. -/
structure Says (txt : Name) (p1 p2 : Agent) (w1 w2 d n : Nat) (v : Rat) : Prop where
  player1 : entry "Player 1: " txt = some p1.name
  player2 : entry "Player 2: " txt = some p2.name
  wins1 : (entry "Wins Player 1: " txt).bind natValue = some w1
  wins2 : (entry "Wins Player 2: " txt).bind natValue = some w2
  draws : (entry "Draws: " txt).bind natValue = some d
  games : (entry "Number of Games: " txt).bind natValue = some n
  winrate : (entry "Winrate: " txt).bind percentValue = some v

theorem lines_of (a b c d e f g : Name) (ha : '\n' ∉ a) (hb : '\n' ∉ b) (hc : '\n' ∉ c) (hd : '\n' ∉ d) (he : '\n' ∉ e)
    (hf : '\n' ∉ f) (hg : '\n' ∉ g) :
    split '\n' (line a ++ line b ++ line c ++ line d ++ line e ++ line f ++ line g) = [a, b, c, d, e, f, g, []] := by
  have h := Pr.split_join (c := '\n') (l := [a, b, c, d, e, f, g, []]) (by simp) (by
    intro x hx
    simp only [List.mem_cons, List.not_mem_nil, or_false] at hx
    rcases hx with rfl | rfl | rfl | rfl | rfl | rfl | rfl | rfl <;> first | assumption | simp)
  rw [← h]
  simp [line, join]

theorem text_says {r : PlayResult G} {s : Name} {v : Rat} (hs : display64 (percentage r.winrate) = s) (hn : '\n' ∉ s)
    (hv : decimalValue s = some v) : Says r.text r.player1 r.player2 r.wins1 r.wins2 r.draws r.nGames v := by
  have hl := lines_of (lit "Player 1: " ++ r.player1.name) (lit "Player 2: " ++ r.player2.name)
    (lit "Wins Player 1: " ++ digits r.wins1) (lit "Wins Player 2: " ++ digits r.wins2) (lit "Draws: " ++ digits r.draws)
    (lit "Number of Games: " ++ digits r.nGames) (lit "Winrate: " ++ s ++ lit "%")
    (by rw [List.mem_append, not_or]; exact ⟨by decide, newline_agent _⟩)
    (by rw [List.mem_append, not_or]; exact ⟨by decide, newline_agent _⟩)
    (by rw [List.mem_append, not_or]; exact ⟨by decide, newline_digits _⟩)
    (by rw [List.mem_append, not_or]; exact ⟨by decide, newline_digits _⟩)
    (by rw [List.mem_append, not_or]; exact ⟨by decide, newline_digits _⟩)
    (by rw [List.mem_append, not_or]; exact ⟨by decide, newline_digits _⟩)
    (by rw [List.mem_append, List.mem_append, not_or, not_or]; exact ⟨⟨by decide, hn⟩, by decide⟩)
  have ht : r.text = line (lit "Player 1: " ++ r.player1.name) ++ line (lit "Player 2: " ++ r.player2.name) ++
      line (lit "Wins Player 1: " ++ digits r.wins1) ++ line (lit "Wins Player 2: " ++ digits r.wins2) ++
      line (lit "Draws: " ++ digits r.draws) ++ line (lit "Number of Games: " ++ digits r.nGames) ++
      line (lit "Winrate: " ++ s ++ lit "%") := by rw [← hs]; rfl
  rw [← ht] at hl
  generalize r.text = txt at hl
  refine ⟨?_, ?_, ?_, ?_, ?_, ?_, ?_⟩
  · unfold entry; rw [hl]; rfl
  · unfold entry; rw [hl]; rfl
  · unfold entry; rw [hl]; exact natValue_digits _
  · unfold entry; rw [hl]; exact natValue_digits _
  · unfold entry; rw [hl]; exact natValue_digits _
  · unfold entry; rw [hl]; exact natValue_digits _
  · have : entry "Winrate: " txt = some (s ++ lit "%") := by unfold entry; rw [hl]; rfl
    rw [this]
    show percentValue (s ++ ['%']) = some v
    unfold percentValue
    rw [if_pos (by simp), List.dropLast_concat, hv]

/-- The full claim: for every number `k` of wins out of 400 the printed percentage is `k / 4`. -/
def C101 : Prop := ∀ k ≤ 400, ∀ r : PlayResult (TTT.game .debug), r.wins1 = k → r.nGames = 400 →
  r.winrate = rnd f64 ((k : Rat) / (400 : Nat)) → Says r.text r.player1 r.player2 k r.wins2 r.draws 400 (k / 4)

/-- A result with 228 wins. -/
def r228 : PlayResult (TTT.game .debug) where
  player1 := .model
  player2 := .random
  wins1 := 228
  wins2 := 172
  draws := 0
  nGames := 400
  winrate := rnd f64 (((228 : Nat) : Rat) / (400 : Nat))
  games := []

/-- C101 is false: 228 wins are printed as `Winrate: 56.99999999999999%`. -/
theorem C101_refuted : ¬ C101 := by
  intro h
  have h1 := (h 228 (by norm_num) r228 rfl rfl rfl).winrate
  obtain ⟨h2, v, h3, -, h4⟩ := shown_ok (k := 228) (by norm_num)
  have h5 := (text_says (r := r228) rfl h2 h3).winrate
  rw [h5] at h1
  exact h4.1 (by rw [Option.some.inj h1]) (by decide)

/-- The text printed for 228 wins. -/
theorem C101_text : shown 228 = lit "56.99999999999999" := by decide +kernel

/-- C101 as far as it holds, for any game: the players and the counts are printed as they are, wins and draws add up to 400,
and the printed percentage differs from the exact one by at most `10 ^ -13`; it is exact but for 35 numbers of wins. -/
theorem C101_partial_any (hid : Ids G) {pf : Profile} {p1 p2 : Player Fl} {cfg : Config} {o : Orders} (ho : o.Valid)
    {f : Nat} {t t' : Tape} {r : PlayResult G} (h : play pf (rnd f64) p1 p2 cfg o f t = .ok (r, t')) :
    ∃ m, V.Behind pf (rnd f64) p1 p2 cfg 400 400 o f t t' r m ∧ ∃ (w1 w2 d : Nat) (v : Rat),
      Says r.text p1.agent p2.agent w1 w2 d 400 v ∧
      w1 = ((List.range 400).filter fun i => decide (outcome (m.steps i) = -1)).length ∧
      w2 = ((List.range 400).filter fun i => decide (outcome (m.steps i) = 1)).length ∧ w1 + w2 + d = 400 ∧
      |v - (w1 : Rat) / 4| ≤ 1 / 10 ^ 13 ∧ (v = (w1 : Rat) / 4 ↔ w1 ∉ inexact) := by
  obtain ⟨m, h1, hw, h2, -⟩ := V.accounted hid ho h
  refine ⟨m, h1, r.wins1, r.wins2, r.draws, ?_⟩
  obtain ⟨h3, v, h4, h5⟩ := shown_ok (k := r.wins1) (by have := h2.total; omega)
  refine ⟨v, ?_, h2.wins1, h2.wins2, h2.total, h5⟩
  have := text_says (r := r) (s := shown r.wins1) (by rw [hw]; rfl) h3 h4
  rwa [h2.players.1, h2.players.2.1, h2.nGames] at this

/-- C101 for TicTacToe. -/
theorem C101_partial {pf : Profile} {p1 p2 : Player Fl} {cfg : Config} {o : Orders} (ho : o.Valid)
    {f : Nat} {t t' : Tape} {r : PlayResult (TTT.game pf)} (h : play pf (rnd f64) p1 p2 cfg o f t = .ok (r, t')) :
    ∃ m, V.Behind pf (rnd f64) p1 p2 cfg 400 400 o f t t' r m ∧ ∃ (w1 w2 d : Nat) (v : Rat),
      Says r.text p1.agent p2.agent w1 w2 d 400 v ∧
      w1 = ((List.range 400).filter fun i => decide (outcome (m.steps i) = -1)).length ∧
      w2 = ((List.range 400).filter fun i => decide (outcome (m.steps i) = 1)).length ∧ w1 + w2 + d = 400 ∧
      |v - (w1 : Rat) / 4| ≤ 1 / 10 ^ 13 ∧ (v = (w1 : Rat) / 4 ↔ w1 ∉ inexact) := C101_partial_any (V.ttt_ids pf) ho h

/-- C101 for Backgammon. -/
theorem C101_backgammon_partial {pf : Profile} {p1 p2 : Player Fl} {cfg : Config} {o : Orders} (ho : o.Valid)
    {f : Nat} {t t' : Tape} {r : PlayResult (BG.game pf)} (h : play pf (rnd f64) p1 p2 cfg o f t = .ok (r, t')) :
    ∃ m, V.Behind pf (rnd f64) p1 p2 cfg 400 400 o f t t' r m ∧ ∃ (w1 w2 d : Nat) (v : Rat),
      Says r.text p1.agent p2.agent w1 w2 d 400 v ∧
      w1 = ((List.range 400).filter fun i => decide (outcome (m.steps i) = -1)).length ∧
      w2 = ((List.range 400).filter fun i => decide (outcome (m.steps i) = 1)).length ∧ w1 + w2 + d = 400 ∧
      |v - (w1 : Rat) / 4| ≤ 1 / 10 ^ 13 ∧ (v = (w1 : Rat) / 4 ↔ w1 ∉ inexact) := C101_partial_any (V.bg_ids pf) ho h

/-- 35 of the 401 numbers. -/
example : inexact.length = 35 ∧ inexact.Nodup ∧ ∀ k ∈ inexact, k ≤ 400 := by decide

end DieE.Props.Rp
