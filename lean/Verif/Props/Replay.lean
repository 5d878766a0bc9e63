import Verif.App.ReplaySpec
import Verif.Props.App

/-!
# C133: what a replay shows of a file
-/

namespace DieE.Props.Re
open DieE DieE.App DieE.Versus DieE.Text DieE.Fp DieE.Props.Ap
open DieE.Train (Name digits)
variable {G : Game}

/-! ## Words -/

theorem words_mark {c : Char} (hc : mark c = true) (a b : Name) : words (a ++ c :: b) = words a ++ words b := by
  unfold words
  rw [List.map_append, List.map_cons, if_pos hc, split_append, List.filter_append]

theorem words_nil : words [] = [] := rfl

theorem words_left {a : Name} (h : a.getLast?.all mark = true) (b : Name) : words (a ++ b) = words a ++ words b := by
  rcases List.eq_nil_or_concat a with rfl | ⟨a, c, rfl⟩
  · rfl
  · have hc : mark c = true := by simpa using h
    have e : a ++ [c] ++ b = a ++ c :: b := by simp
    rw [List.concat_eq_append, e, words_mark hc, words_mark hc, words_nil, List.append_nil]

theorem words_right {b : Name} (h : b.head?.all mark = true) (a : Name) : words (a ++ b) = words a ++ words b := by
  cases b with
  | nil => rw [List.append_nil, words_nil, List.append_nil]
  | cons c b =>
    have hc : mark c = true := by simpa using h
    rw [words_mark hc]
    have := words_mark hc [] b
    rw [List.nil_append, words_nil, List.nil_append] at this
    rw [this]

theorem words_one {a : Name} (h0 : a ≠ []) (h : ∀ c ∈ a, mark c = false) : words a = [a] := by
  have e : (a.map fun c => if mark c then ' ' else c) = a := by
    conv => rhs; rw [← List.map_id a]
    refine List.map_congr_left fun c hc => ?_
    rw [h c hc]; rfl
  have hs : ' ' ∉ a := fun hm => absurd (h _ hm) (by decide)
  unfold words
  rw [e, Pr.split_none hs]
  simp [h0]

theorem mark_digit {c : Char} (h : c.isDigit = true) : mark c = false := by
  cases hm : mark c with
  | false => rfl
  | true =>
    unfold mark at hm
    rw [List.contains_iff_mem] at hm
    have := (show ∀ c ∈ [' ', ',', ':', '(', ')', '[', ']', '{', '}'], c.isDigit = false by decide) c hm
    rw [h] at this
    cases this

theorem words_digits (n : Nat) : words (digits n) = [digits n] :=
  words_one (digits_ne_nil n) fun _ hc => mark_digit (digits_isDigit hc)

theorem words_int (n : Int) : words (writeInt n) = [writeInt n] := by
  unfold writeInt
  split
  · refine words_one (by simp) fun c hc => ?_
    rcases List.mem_cons.1 hc with rfl | hc
    · decide
    · exact mark_digit (digits_isDigit hc)
  · exact words_digits _

theorem words_mid {l : Name} (h1 : l.head?.all mark = true) (h2 : l.getLast?.all mark = true) (h0 : l ≠ []) (a b : Name) :
    words (a ++ l ++ b) = words a ++ words l ++ words b := by
  rw [words_left (a := a ++ l) (by
    rw [List.getLast?_append]
    cases hl : l.getLast? with
    | none => exact absurd (List.getLast?_eq_none_iff.1 hl) h0
    | some c => rw [hl] at h2; exact h2), words_right h1]

theorem words_join {l : List Name} : words (join (lit ", ") l) = (l.map words).flatten := by
  induction l with
  | nil => rfl
  | cons x l ih =>
    cases l with
    | nil => simp [join]
    | cons y l =>
      show words (x ++ lit ", " ++ join (lit ", ") (y :: l)) = _
      rw [words_left (a := x ++ lit ", ") (by
        rw [List.getLast?_append]; rfl), words_right (by decide), ih, show words (lit ", ") = [] by decide, List.append_nil]
      rfl

theorem words_seq {l r : Char} (hl : mark l = true) (hr : mark r = true) (xs : List Name) :
    words (debugSeq [l] [r] xs) = (xs.map words).flatten := by
  unfold debugSeq
  rw [words_right (by simpa using hr), words_left (by simpa using hl), words_join]
  have h1 : ∀ c, mark c = true → words [c] = [] := fun c hc => by
    have := words_mark hc [] []
    simpa [words_nil] using this
  rw [h1 _ hl, h1 _ hr, List.nil_append, List.append_nil]

theorem words_ints (xs : List Int) : ((xs.map writeInt).map words).flatten = xs.map writeInt := by
  induction xs with
  | nil => rfl
  | cons x xs ih => simp only [List.map_cons, List.flatten_cons, ih, words_int, List.singleton_append]

theorem words_pair (p : Int × Int) : words (debugPair p) = [writeInt p.1, writeInt p.2] :=
  (words_seq (by decide) (by decide) _).trans (words_ints [p.1, p.2])

theorem words_roll (d : Option (Int × Int)) : words (lit "Roll: " ++ debugRoll d) = "Roll".toList :: rollWords d := by
  rw [words_left (by decide)]
  cases d with
  | none => decide
  | some p =>
    unfold debugRoll
    rw [words_right (by decide), words_left (by decide), words_pair]
    rfl

theorem words_debugRoll (d : Option (Int × Int)) : words (debugRoll d) = rollWords d := by
  cases d with
  | none => decide
  | some p =>
    unfold debugRoll
    rw [words_right (by decide), words_left (by decide), words_pair]
    rfl

theorem words_ttt (g : TTT.State) : words (debugTTT g) = tttWords g := by
  have e1 : words (lit "TicTacToe { player: ") = ["TicTacToe".toList, "player".toList] := by decide
  have e2 : words (lit ", board: ") = ["board".toList] := by decide
  have e3 : words (lit ", id: ") = ["id".toList] := by decide
  have e4 : words (lit " }") = [] := by decide
  unfold debugTTT tttWords
  rw [words_right (b := lit " }") (by decide), words_mid (l := lit ", id: ") (by decide) (by decide) (by decide),
    words_mid (l := lit ", board: ") (by decide) (by decide) (by decide), words_left (a := lit "TicTacToe { player: ") (by decide),
    words_seq (by decide) (by decide), words_ints, words_int, words_digits, e1, e2, e3, e4]
  simp only [List.append_assoc, List.cons_append, List.nil_append, List.append_nil]

theorem words_bg (g : BG.State) : words (debugBG g) = bgWords g := by
  have e1 : words (lit "Backgammon { board: (") = ["Backgammon".toList, "board".toList] := by decide
  have e2 : words (lit ", ") = [] := by decide
  have e3 : words (lit "), roll: ") = ["roll".toList] := by decide
  have e4 : words (lit ", player: ") = ["player".toList] := by decide
  have e5 : words (lit ", is_second_play: ") = ["is_second_play".toList] := by decide
  have e6 : words (lit ", id: ") = ["id".toList] := by decide
  have e7 : words (lit " }") = [] := by decide
  have e8 : words (debugBool g.second) = [(if g.second then "true" else "false").toList] := by cases g.second <;> decide
  unfold debugBG bgWords
  rw [words_right (b := lit " }") (by decide), words_mid (l := lit ", id: ") (by decide) (by decide) (by decide),
    words_mid (l := lit ", is_second_play: ") (by decide) (by decide) (by decide),
    words_mid (l := lit ", player: ") (by decide) (by decide) (by decide),
    words_mid (l := lit "), roll: ") (by decide) (by decide) (by decide),
    words_mid (l := lit ", ") (by decide) (by decide) (by decide), words_mid (l := lit ", ") (by decide) (by decide) (by decide),
    words_left (a := lit "Backgammon { board: (") (by decide),
    words_seq (by decide) (by decide), words_ints, words_int, words_digits, words_pair, words_pair, words_pair, e1, e2, e3, e4, e5, e6, e7, e8]
  simp only [List.append_assoc, List.cons_append, List.nil_append, List.append_nil]

/-! ## Lines -/

/-- The labels of the lines of a turn. -/
def labels : List String := ["Player: ", "Roll: ", "Action: "]

/-- No line begins with a label. -/
def Quiet (ls : List Name) : Prop := ∀ l ∈ ls, ∀ k ∈ labels, k.toList.isPrefixOf l = false

/-- The lines of one turn. -/
def turnLines (K : Printer G) (board : Name) (t : SavedTurn G.S) : List Name :=
  [lit "Player: " ++ t.player.name, lit "Roll: " ++ debugRoll t.roll, lit "Action: " ++ debugSeq ['['] [']'] (t.action.map K.debug),
    lit "State after action has been played:"] ++ split '\n' board ++ [lit "Press Enter to continue..."]

theorem not_newline {a b : Name} (ha : '\n' ∉ a) (hb : '\n' ∉ b) : '\n' ∉ a ++ b := by
  rw [List.mem_append, not_or]; exact ⟨ha, hb⟩

theorem newline_join {s : Name} (hs : '\n' ∉ s) {l : List Name} (h : ∀ x ∈ l, '\n' ∉ x) : '\n' ∉ join s l := Pr.not_mem_join hs h

theorem newline_seq {a b : Name} (ha : '\n' ∉ a) (hb : '\n' ∉ b) {l : List Name} (h : ∀ x ∈ l, '\n' ∉ x) : '\n' ∉ debugSeq a b l :=
  not_newline (not_newline ha (newline_join (by decide) h)) hb

theorem newline_pair (p : Int × Int) : '\n' ∉ debugPair p := by
  refine newline_seq (by decide) (by decide) fun x hx => ?_
  simp only [List.mem_cons, List.not_mem_nil, or_false] at hx
  rcases hx with rfl | rfl <;> exact (Pr.writeInt_plain _).1

theorem newline_roll (d : Option (Int × Int)) : '\n' ∉ debugRoll d := by
  cases d with
  | none => decide
  | some p => exact not_newline (not_newline (by decide) (newline_pair p)) (by decide)

theorem newline_ttt (g : TTT.State) : '\n' ∉ debugTTT g := by
  refine not_newline (not_newline (not_newline (not_newline (not_newline (not_newline ?_ ?_) ?_) ?_) ?_) ?_) ?_
  · decide
  · exact (Pr.writeInt_plain _).1
  · decide
  · refine newline_seq (by decide) (by decide) fun x hx => ?_
    obtain ⟨n, -, rfl⟩ := List.mem_map.1 hx
    exact (Pr.writeInt_plain _).1
  · decide
  · exact Rp.newline_digits _
  · decide

theorem newline_bg (g : BG.State) : '\n' ∉ debugBG g := by
  have hs : '\n' ∉ debugSeq ['['] [']'] (g.board.pts.toList.map writeInt) := by
    refine newline_seq (by decide) (by decide) fun x hx => ?_
    obtain ⟨n, -, rfl⟩ := List.mem_map.1 hx
    exact (Pr.writeInt_plain _).1
  have hb : '\n' ∉ debugBool g.second := by
    unfold debugBool; split <;> decide
  exact not_newline (not_newline (not_newline (not_newline (not_newline (not_newline (not_newline (not_newline (not_newline (not_newline (not_newline (not_newline (not_newline (not_newline (by decide) hs) (by decide)) (newline_pair _)) (by decide)) (newline_pair _)) (by decide)) (newline_pair _)) (by decide)) (Pr.writeInt_plain _).1) (by decide)) hb) (by decide)) (Rp.newline_digits _)) (by decide)

theorem split_block (a r : Name) : split '\n' (line a ++ r) = split '\n' a ++ split '\n' r := by
  have e : line a ++ r = a ++ '\n' :: r := by simp [line]
  rw [e, split_append]

theorem split_turn {K : Printer G} (hK : ∀ s, '\n' ∉ K.debug s) (board : Name) (t : SavedTurn G.S) (r : Name) :
    split '\n' (turnText K board t ++ r) = turnLines K board t ++ split '\n' r := by
  unfold turnText turnLines
  simp only [List.append_assoc]
  have ha : '\n' ∉ lit "Action: " ++ debugSeq ['['] [']'] (t.action.map K.debug) := by
    refine not_newline (by decide) (newline_seq (by decide) (by decide) fun x hx => ?_)
    obtain ⟨s, -, rfl⟩ := List.mem_map.1 hx
    exact hK s
  rw [split_line (not_newline (by decide) (Rp.newline_agent _)), split_line (not_newline (by decide) (newline_roll _)),
    split_line ha, split_line (by decide), split_block, split_line (by decide)]
  rfl

/-- The lines of the output. -/
def allLines (K : Printer G) (n : Nat) (g : SavedGame G.S) (board : Name) : List Name :=
  [headLine n, lit "Game ID: " ++ g.id, lit "Player 1: " ++ (g.player1.name ++ lit ", Player 2: " ++ g.player2.name),
    lit "Game winner: " ++ g.winner.name, lit "Initial State:"] ++ split '\n' board ++
    ((g.turns.map (turnLines K board)).flatten ++ [[]])

theorem split_turns {K : Printer G} (hK : ∀ s, '\n' ∉ K.debug s) (board : Name) (ts : List (SavedTurn G.S)) :
    split '\n' (ts.map (turnText K board)).flatten = (ts.map (turnLines K board)).flatten ++ [[]] := by
  induction ts with
  | nil => rfl
  | cons t ts ih => rw [List.map_cons, List.flatten_cons, split_turn hK, ih, List.map_cons, List.flatten_cons, List.append_assoc]

/-- What is printed. -/
abbrev longText (K : Printer G) (g : SavedGame G.S) (board : Name) : Name :=
  line (lit "Game ID: " ++ g.id) ++
    line (lit "Player 1: " ++ g.player1.name ++ lit ", Player 2: " ++ g.player2.name) ++
    line (lit "Game winner: " ++ g.winner.name) ++ line (lit "Initial State:") ++ line board ++
    (g.turns.map (turnText K board)).flatten

theorem split_long {K : Printer G} (hK : ∀ s, '\n' ∉ K.debug s) {g : SavedGame G.S} (hid : '\n' ∉ g.id) (board : Name) (n : Nat) :
    split '\n' (line (headLine n) ++ longText K g board) = allLines K n g board := by
  unfold allLines
  have e : line (headLine n) ++ longText K g board = line (headLine n) ++ (line (lit "Game ID: " ++ g.id) ++
    (line (lit "Player 1: " ++ (g.player1.name ++ lit ", Player 2: " ++ g.player2.name)) ++
    (line (lit "Game winner: " ++ g.winner.name) ++ (line (lit "Initial State:") ++ (line board ++
    (g.turns.map (turnText K board)).flatten))))) := by
    simp only [longText, List.append_assoc]
  rw [e, split_line (headLine_plain n), split_line (not_newline (by decide) hid),
    split_line (not_newline (by decide) (players_plain _ _)), split_line (not_newline (by decide) (Rp.newline_agent _)),
    split_line (by decide), split_block, split_turns hK]
  rfl

/-! ## Entries -/

/-- The entries of a list of lines. -/
def pick (label : String) (ls : List Name) : List Name :=
  ls.filterMap fun l => if label.toList.isPrefixOf l then some (l.drop label.length) else none

theorem pick_append (label : String) (a b : List Name) : pick label (a ++ b) = pick label a ++ pick label b := List.filterMap_append

theorem pick_quiet {label : String} (hl : label ∈ labels) {ls : List Name} (h : Quiet ls) : pick label ls = [] := by
  unfold pick
  rw [List.filterMap_eq_nil_iff]
  intro l hm
  rw [h l hm label hl]
  rfl

theorem pick_hit (label : String) (a : Name) (ls : List Name) : pick label ((lit label ++ a) :: ls) = a :: pick label ls := by
  unfold pick
  rw [List.filterMap_cons_some (b := a)]
  rw [if_pos (by rw [List.isPrefixOf_iff_prefix]; exact List.prefix_append _ _)]
  rw [← String.length_toList]
  exact congrArg some (List.drop_left ..)

theorem pick_miss {label : String} {a b : Name} (h1 : label.toList.isPrefixOf a = false) (h2 : a.isPrefixOf label.toList = false)
    (ls : List Name) : pick label ((a ++ b) :: ls) = pick label ls := by
  unfold pick
  rw [List.filterMap_cons_none]
  rw [prefix_apart h1 h2]
  rfl

theorem pick_none {label : String} {a : Name} (h1 : label.toList.isPrefixOf a = false) (ls : List Name) : pick label (a :: ls) = pick label ls := by
  unfold pick
  rw [List.filterMap_cons_none]
  rw [h1]
  rfl

theorem pick_head {label : String} (hl : label ∈ labels) (n : Nat) (g : SavedGame G.S) :
    pick label [headLine n, lit "Game ID: " ++ g.id, lit "Player 1: " ++ (g.player1.name ++ lit ", Player 2: " ++ g.player2.name),
    lit "Game winner: " ++ g.winner.name, lit "Initial State:"] = [] := by
  simp only [labels, List.mem_cons, List.not_mem_nil, or_false] at hl
  rcases hl with rfl | rfl | rfl <;>
  rw [pick_miss (by decide) (by decide), pick_miss (by decide) (by decide), pick_miss (by decide) (by decide), pick_miss (by decide) (by decide),
    pick_none (by decide)] <;> rfl

theorem pick_turn (K : Printer G) {board : Name} (hb : Quiet (split '\n' board)) (t : SavedTurn G.S) :
    pick "Player: " (turnLines K board t) = [t.player.name] ∧ pick "Roll: " (turnLines K board t) = [debugRoll t.roll] ∧
      pick "Action: " (turnLines K board t) = [debugSeq ['['] [']'] (t.action.map K.debug)] := by
  unfold turnLines
  refine ⟨?_, ?_, ?_⟩
  · rw [pick_append, pick_append, pick_quiet (by decide) hb, pick_hit, pick_miss (by decide) (by decide), pick_miss (by decide) (by decide),
      pick_none (by decide), pick_none (by decide)]
    rfl
  · rw [pick_append, pick_append, pick_quiet (by decide) hb, pick_miss (by decide) (by decide), pick_hit, pick_miss (by decide) (by decide),
      pick_none (by decide), pick_none (by decide)]
    rfl
  · rw [pick_append, pick_append, pick_quiet (by decide) hb, pick_miss (by decide) (by decide), pick_miss (by decide) (by decide), pick_hit,
      pick_none (by decide), pick_none (by decide)]
    rfl

theorem pick_turns {label : String} {K : Printer G} {board : Name} {x : SavedTurn G.S → Name}
    (h : ∀ t, pick label (turnLines K board t) = [x t]) (ts : List (SavedTurn G.S)) : pick label (ts.map (turnLines K board)).flatten = ts.map x := by
  induction ts with
  | nil => rfl
  | cons t ts ih => rw [List.map_cons, List.flatten_cons, pick_append, h, ih]; rfl

theorem pick_all {label : String} (hl : label ∈ labels) {K : Printer G} {board : Name} (hb : Quiet (split '\n' board)) {x : SavedTurn G.S → Name}
    (h : ∀ t, pick label (turnLines K board t) = [x t]) (n : Nat) (g : SavedGame G.S) : pick label (allLines K n g board) = g.turns.map x := by
  unfold allLines
  rw [pick_append, pick_append, pick_append, pick_head hl, pick_quiet hl hb, pick_turns h]
  have : pick label [[]] = [] := by
    simp only [labels, List.mem_cons, List.not_mem_nil, or_false] at hl
    rcases hl with rfl | rfl | rfl <;> rfl
  rw [this, List.append_nil, List.append_nil, List.nil_append]

/-- What a printer must satisfy on the positions `Q`. -/
structure Legible (K : Printer G) (Q : G.S → Prop) (w : G.S → List Name) : Prop where
  plain : ∀ s, '\n' ∉ K.debug s
  words : ∀ s, App.words (K.debug s) = w s
  pretty : ∀ s, Q s → ∃ txt, K.pretty s = .ok txt ∧ Quiet (split '\n' txt)

theorem displayed {K : Printer G} {Q : G.S → Prop} {w : G.S → List Name} (hK : Legible K Q w) {g : SavedGame G.S} (hid : '\n' ∉ g.id)
    {board : Name} (hb : Quiet (split '\n' board)) (n : Nat) : Displayed w (line (headLine n) ++ longText K g board) g := by
  have hs := split_long hK.plain hid board n
  have he : ∀ l, entries l (line (headLine n) ++ longText K g board) = pick l (allLines K n g board) := fun l => by
    unfold entries pick
    rw [hs]
  refine ⟨?_, ?_, ?_, ?_⟩
  · have hk : ∀ l ∈ ["Game ID: ", "Player 1: ", "Game winner: "], l.toList.isPrefixOf (headLine n) = false := by
      simp only [List.mem_cons, List.not_mem_nil, or_false, forall_eq_or_imp, forall_eq]
      exact ⟨prefix_apart (by decide) (by decide), prefix_apart (by decide) (by decide), prefix_apart (by decide) (by decide)⟩
    have h1 : '\n' ∉ lit "Game ID: " ++ g.id := not_newline (by decide) hid
    have h2 : '\n' ∉ lit "Player 1: " ++ (g.player1.name ++ lit ", Player 2: " ++ g.player2.name) :=
      not_newline (by decide) (players_plain _ _)
    have e : longText K g board = line (lit "Game ID: " ++ g.id) ++
        (line (lit "Player 1: " ++ (g.player1.name ++ lit ", Player 2: " ++ g.player2.name)) ++
        (line (lit "Game winner: " ++ g.winner.name) ++ (line (lit "Initial State:") ++ (line board ++
        (g.turns.map (turnText K board)).flatten)))) := by
      simp only [longText, List.append_assoc]
    rw [e]
    refine ⟨?_, ?_, ?_⟩
    · rw [entry_skip (headLine_plain n) (hk _ (by decide)), entry_first hid, if_neg (by decide)]
    · rw [entry_skip (headLine_plain n) (hk _ (by decide)), entry_skip h1 (prefix_apart (by decide) (by decide)),
        entry_first (players_plain _ _), if_neg (by decide)]
      rfl
    · rw [entry_skip (headLine_plain n) (hk _ (by decide)), entry_skip h1 (prefix_apart (by decide) (by decide)),
        entry_skip h2 (prefix_apart (by decide) (by decide)), entry_first (Rp.newline_agent _), if_neg (by decide)]
  · rw [he, pick_all (by decide) hb fun t => (pick_turn K hb t).1]
  · rw [he, pick_all (by decide) hb fun t => (pick_turn K hb t).2.1, List.map_map]
    exact List.map_congr_left fun t _ => words_debugRoll t.roll
  · rw [he, pick_all (by decide) hb fun t => (pick_turn K hb t).2.2, List.map_map]
    refine List.map_congr_left fun t _ => ?_
    show App.words (debugSeq ['['] [']'] (t.action.map K.debug)) = _
    rw [words_seq (by decide) (by decide), List.map_map]
    congr 1
    exact List.map_congr_left fun s _ => hK.words s

theorem quiet_char {c : Char} {l : Name} (hc : c ≠ 'P' ∧ c ≠ 'R' ∧ c ≠ 'A') : ∀ k ∈ labels, k.toList.isPrefixOf (c :: l) = false := by
  intro k hk
  simp only [labels, List.mem_cons, List.not_mem_nil, or_false] at hk
  have key : ∀ (d : Char) (r : Name), c ≠ d → (d :: r).isPrefixOf (c :: l) = false := by
    intro d r h
    simp [List.isPrefixOf, Ne.symm h]
  rcases hk with rfl | rfl | rfl
  · exact key _ _ hc.1
  · exact key _ _ hc.2.1
  · exact key _ _ hc.2.2

theorem quiet_int (n : Int) (r : Name) : ∀ k ∈ labels, k.toList.isPrefixOf (writeInt n ++ r) = false := by
  obtain ⟨c, l, e, hc⟩ := writeInt_cons n
  rw [e]
  refine quiet_char ?_
  refine ⟨?_, ?_, ?_⟩ <;> rintro rfl <;> revert hc <;> decide

theorem legible_ttt (pf : Profile) : Legible (tttPrinter pf) (fun _ => True) tttWords where
  plain := newline_ttt
  words := words_ttt
  pretty := by
    intro g _
    refine ⟨_, rfl, ?_⟩
    have hp : ∀ a b c : Int, '\n' ∉ writeInt a ++ (lit "|" ++ (writeInt b ++ (lit "|" ++ writeInt c))) := fun a b c =>
      not_newline (Pr.writeInt_plain _).1 (not_newline (by decide) (not_newline (Pr.writeInt_plain _).1 (not_newline (by decide) (Pr.writeInt_plain _).1)))
    have e : TTT.toPrettyStr g = line (writeInt (g.cell 0) ++ (lit "|" ++ (writeInt (g.cell 1) ++ (lit "|" ++ writeInt (g.cell 2))))) ++
        (line (writeInt (g.cell 3) ++ (lit "|" ++ (writeInt (g.cell 4) ++ (lit "|" ++ writeInt (g.cell 5))))) ++
        (writeInt (g.cell 6) ++ (lit "|" ++ (writeInt (g.cell 7) ++ (lit "|" ++ writeInt (g.cell 8)))))) := by
      unfold TTT.toPrettyStr
      have e6 : lit "\n" = ['\n'] := by decide
      simp only [line, List.append_assoc, e6]
    rw [e, split_line (hp _ _ _), split_line (hp _ _ _), Pr.split_none (hp _ _ _)]
    intro l hl
    simp only [List.mem_cons, List.not_mem_nil, or_false] at hl
    rcases hl with rfl | rfl | rfl <;> exact quiet_int _ _

theorem legible_bg (pf : Profile) : Legible (bgPrinter pf) (fun s => Pr.Printable s.board) bgWords where
  plain := newline_bg
  words := words_bg
  pretty := by
    intro g hg
    refine ⟨_, Pr.text_ok pf hg, ?_⟩
    rw [Pr.split_join (by simp [Pr.table])]
    · intro l hl
      obtain ⟨row, hr, rfl⟩ := List.mem_map.1 hl
      unfold Pr.table at hr
      rw [List.mem_append, List.mem_append] at hr
      rcases hr with (hr | hr) | hr
      · generalize hL : List.replicate 110 '=' = L at hr
        have hL' : L = '=' :: List.replicate 109 '=' := by rw [← hL]; rfl
        simp only [List.mem_cons, List.not_mem_nil, or_false] at hr
        rcases hr with rfl | rfl | rfl | rfl | rfl | rfl | rfl | rfl
        · exact quiet_char (c := 'C') (by decide)
        · decide
        · exact quiet_char (c := '\t') (by decide)
        · exact quiet_char (c := '\t') (by decide)
        · decide
        · exact quiet_char (c := '\t') (by decide)
        · exact quiet_char (c := '\t') (by decide)
        · show ∀ k ∈ labels, k.toList.isPrefixOf L = false
          rw [hL']
          exact quiet_char (by decide)
      · obtain ⟨r, -, rfl⟩ := List.mem_map.1 hr
        unfold Pr.framed
        have : ∃ l, join ['\t'] ([['|']] ++ r.take 6 ++ [['|']] ++ r.drop 6 ++ [['|']]) = '|' :: l := by
          simp only [List.append_assoc, List.cons_append, List.nil_append]
          cases h : r.take 6 ++ ['|'] :: (r.drop 6 ++ [['|']]) with
          | nil => exact ⟨_, rfl⟩
          | cons x xs => exact ⟨_, rfl⟩
        obtain ⟨l, hl⟩ := this
        rw [hl]
        exact quiet_char (by decide)
      · rw [List.mem_singleton.1 hr]
        exact quiet_char (c := '=') (by decide)
    · intro x hx
      obtain ⟨row, hrow, rfl⟩ := List.mem_map.1 hx
      exact Pr.not_mem_join (by decide) fun y hy => ((Pr.plain_table row hrow).2 y hy).1

/-! ## C133 -/

theorem replayMain_long {K : Printer G} {p txt : Name} {fs : Fs} (hf : fs.text p = some txt) {g : SavedGame G.S}
    (hl : loadText K.serde txt = some g) {board : Name} (hb : K.pretty g.initial = .ok board) : replayMain K p fs = .ok (longText K g board) := by
  unfold replayMain
  rw [hf, Option.bind_some, hl]
  simp only [gameText, hb]
  rfl

/-- C133 for TicTacToe: a replay of a file that holds a game, whoever wrote it, shows the game with all its turns, and
changes no file. -/
theorem C133_tictactoe {E : Env} {argv : List Name} {a : Cli.Args} (ha : Cli.Means argv a) (hg : a.game = .ticTacToe) {p : Name}
    (hc : a.command = .replay p) {fs : Fs} {conf : Config.Conf Num} {n : Nat} (hb : Begins E a fs conf n) {txt : Name}
    (hf : fs.text p = some txt) {g : SavedGame TTT.State} (hl : loadText tttSerde txt = some g) (hid : '\n' ∉ g.id) (o : Orders)
    (f : Nat) (ids : Nat → Name) (u : Tape) :
    ∃ s, main E argv fs o f ids u = .ok (.done s fs, u) ∧ Displayed tttWords s g := by
  have hK := legible_ttt E.pf
  obtain ⟨board, h1, h2⟩ := hK.pretty g.initial trivial
  refine ⟨_, (main_ok ha).2 ⟨conf, n, _, hb, ?_, rfl⟩, displayed hK hid h2 n⟩
  unfold dispatch handle
  simp only [hg, hc]
  exact M.bind_ok.2 ⟨_, u, M.lift_ok.2 ⟨replayMain_long (K := tttPrinter E.pf) hf hl h1, rfl⟩, rfl⟩

/-- C133 for Backgammon: as above, if no point of the initial position holds the entry -128. -/
theorem C133_backgammon {E : Env} {argv : List Name} {a : Cli.Args} (ha : Cli.Means argv a) (hg : a.game = .backgammon) {p : Name}
    (hc : a.command = .replay p) {fs : Fs} {conf : Config.Conf Num} {n : Nat} (hb : Begins E a fs conf n) {txt : Name}
    (hf : fs.text p = some txt) {g : SavedGame BG.State} (hl : loadText bgSerde txt = some g) (hid : '\n' ∉ g.id)
    (hq : Pr.Printable g.initial.board) (o : Orders) (f : Nat) (ids : Nat → Name) (u : Tape) :
    ∃ s, main E argv fs o f ids u = .ok (.done s fs, u) ∧ Displayed bgWords s g := by
  have hK := legible_bg E.pf
  obtain ⟨board, h1, h2⟩ := hK.pretty g.initial hq
  refine ⟨_, (main_ok ha).2 ⟨conf, n, _, hb, ?_, rfl⟩, displayed hK hid h2 n⟩
  unfold dispatch handle
  simp only [hg, hc]
  exact M.bind_ok.2 ⟨_, u, M.lift_ok.2 ⟨replayMain_long (K := bgPrinter E.pf) hf hl h1, rfl⟩, rfl⟩

/-- C133: a file that does not hold a game, or no file at all, is reported by a panic. -/
theorem C133_reports {E : Env} {argv : List Name} {a : Cli.Args} (ha : Cli.Means argv a) {p : Name} (hc : a.command = .replay p)
    {fs : Fs} {conf : Config.Conf Num} {n : Nat} (hb : Begins E a fs conf n)
    (hf : match a.game with
      | .ticTacToe => (fs.text p).bind (loadText tttSerde) = none
      | .backgammon => (fs.text p).bind (loadText bgSerde) = none) (o : Orders) (f : Nat) (ids : Nat → Name) (u : Tape) :
    main E argv fs o f ids u = .error .explicitPanic := by
  unfold main
  rw [(Cl.C92 argv a).2 ha]
  simp only
  rw [hb.conf, hb.threads]
  have hd : dispatch E a conf fs o f ids u = .error .explicitPanic := by
    unfold dispatch
    cases hg : a.game with
    | backgammon =>
      rw [hg] at hf
      unfold handle
      simp only [hc]
      have h : replayMain (bgPrinter E.pf) p fs = .error .explicitPanic := by
        unfold replayMain
        rw [show (fs.text p).bind (loadText (bgPrinter E.pf).serde) = none from hf]
      rw [h]
      rfl
    | ticTacToe =>
      rw [hg] at hf
      unfold handle
      simp only [hc]
      have h : replayMain (tttPrinter E.pf) p fs = .error .explicitPanic := by
        unfold replayMain
        rw [show (fs.text p).bind (loadText (tttPrinter E.pf).serde) = none from hf]
      rw [h]
      rfl
  exact (M.bind_eq (t' := u) rfl).trans ((M.bind_eq (t' := u) rfl).trans (M.bind_err hd))

/-! ## The output determines the game -/

theorem flatten_inj {α β : Type} {w : α → List β} {k : Nat} (hk : 0 < k) (hl : ∀ x, (w x).length = k) (hi : ∀ x y, w x = w y → x = y) :
    ∀ {l l' : List α}, (l.map w).flatten = (l'.map w).flatten → l = l'
  | [], [], _ => rfl
  | [], x :: l, h => by
    have := congrArg List.length h
    simp only [List.map_nil, List.flatten_nil, List.length_nil, List.map_cons, List.flatten_cons, List.length_append, hl] at this
    omega
  | x :: l, [], h => by
    have := congrArg List.length h
    simp only [List.map_nil, List.flatten_nil, List.length_nil, List.map_cons, List.flatten_cons, List.length_append, hl] at this
    omega
  | x :: l, y :: l', h => by
    rw [List.map_cons, List.map_cons, List.flatten_cons, List.flatten_cons] at h
    obtain ⟨h1, h2⟩ := List.append_inj h (by rw [hl, hl])
    rw [hi x y h1, flatten_inj hk hl hi h2]

theorem map_inj {α : Type} {f : α → Name} (hf : ∀ x y, f x = f y → x = y) {l l' : List α} (h : l.map f = l'.map f) : l = l' := by
  exact (List.map_inj_right fun x y => hf x y).1 h

theorem tttWords_inj {x y : TTT.State} (h : tttWords x = tttWords y) : x = y := by
  unfold tttWords at h
  obtain ⟨h1, h2⟩ := List.append_inj' h rfl
  obtain ⟨h3, h4⟩ := List.append_inj h1 rfl
  cases x; cases y
  simp only [List.cons.injEq, true_and, and_true] at h2 h3
  have e1 := Pr.writeInt_inj h3
  have e2 := Pr.digits_inj h2
  have e3 := Vector.toList_inj.1 (map_inj (fun _ _ => Pr.writeInt_inj) h4)
  simp only at e1 e2 e3
  rw [e1, e2, e3]

theorem bgWords_inj {x y : BG.State} (h : bgWords x = bgWords y) : x = y := by
  unfold bgWords at h
  obtain ⟨h1, h2⟩ := List.append_inj' h rfl
  have h4 := List.append_cancel_left h1
  have e0 := Vector.toList_inj.1 (map_inj (fun _ _ => Pr.writeInt_inj) h4)
  simp only [List.cons.injEq, true_and, and_true] at h2
  obtain ⟨a1, a2, a3, a4, a5, a6, a7, a8, a9⟩ := h2
  have hs : ∀ b c : Bool, (if b then "true" else "false").toList = (if c then "true" else "false").toList → b = c := by decide
  obtain ⟨⟨pts, hit, col⟩, roll, player, second, id⟩ := x
  obtain ⟨⟨pts', hit', col'⟩, roll', player', second', id'⟩ := y
  simp only at *
  rw [e0, Prod.ext (Pr.writeInt_inj a1) (Pr.writeInt_inj a2), Prod.ext (Pr.writeInt_inj a3) (Pr.writeInt_inj a4),
    Prod.ext (Pr.writeInt_inj a5) (Pr.writeInt_inj a6), Pr.writeInt_inj a7, hs _ _ a8, Pr.digits_inj a9]

theorem rollWords_inj {d e : Option (Int × Int)} (h : rollWords d = rollWords e) : d = e := by
  cases d <;> cases e
  · rfl
  · exact absurd (congrArg List.length h) (by simp [rollWords])
  · exact absurd (congrArg List.length h) (by simp [rollWords])
  · simp only [rollWords, List.cons.injEq, true_and, and_true] at h
    rw [Prod.ext (Pr.writeInt_inj h.1) (Pr.writeInt_inj h.2)]

theorem name_inj : ∀ a b : Agent, a.name = b.name → a = b := by
  intro a b; cases a <;> cases b <;> decide

theorem players_inj {a b a' b' : Agent} (h : a.name ++ ", Player 2: ".toList ++ b.name = a'.name ++ ", Player 2: ".toList ++ b'.name) :
    a = a' ∧ b = b' := by
  revert h
  cases a <;> cases a' <;> cases b <;> cases b' <;> decide

/-- C133: from what is shown, id, agents, winner and all turns can be recovered. -/
theorem C133_determines {S : Type} {w : S → List Name} (hw : ∀ {l l' : List S}, (l.map w).flatten = (l'.map w).flatten → l = l') {s : Name}
    {g g' : SavedGame S} (h : Displayed w s g) (h' : Displayed w s g') :
    g.id = g'.id ∧ g.player1 = g'.player1 ∧ g.player2 = g'.player2 ∧ g.winner = g'.winner ∧ g.turns = g'.turns := by
  obtain ⟨p1, p2⟩ := players_inj (Option.some.inj (h.head.players.symm.trans h'.head.players))
  refine ⟨Option.some.inj (h.head.id.symm.trans h'.head.id), p1, p2,
    name_inj _ _ (Option.some.inj (h.head.winner.symm.trans h'.head.winner)), ?_⟩
  have e1 := h.agents.symm.trans h'.agents
  have e2 := h.rolls.symm.trans h'.rolls
  have e3 := h.actions.symm.trans h'.actions
  have hlen := congrArg List.length e1
  rw [List.length_map, List.length_map] at hlen
  refine List.ext_getElem hlen fun i h1 h2 => ?_
  have f1 := congrArg (fun l => l[i]?) e1
  have f2 := congrArg (fun l => l[i]?) e2
  have f3 := congrArg (fun l => l[i]?) e3
  simp only [List.getElem?_map, List.getElem?_eq_getElem h1, List.getElem?_eq_getElem h2, Option.map_some, Option.some.injEq] at f1 f2 f3
  have g1 := name_inj _ _ f1
  have g2 := rollWords_inj f2
  have g3 := hw f3
  revert g1 g2 g3
  cases g.turns[i]; cases g'.turns[i]
  rintro rfl rfl rfl
  rfl

/-- C133 for the positions of TicTacToe. -/
theorem C133_tictactoe_words {l l' : List TTT.State} (h : (l.map tttWords).flatten = (l'.map tttWords).flatten) : l = l' :=
  flatten_inj (k := 15) (by decide) (fun x => by simp [tttWords]) (fun _ _ => tttWords_inj) h

/-- C133 for the positions of Backgammon. -/
theorem C133_backgammon_words {l l' : List BG.State} (h : (l.map bgWords).flatten = (l'.map bgWords).flatten) : l = l' :=
  flatten_inj (k := 39) (by decide) (fun x => by simp [bgWords]) (fun _ _ => bgWords_inj) h

/-! ## An example -/

/-- A game with two turns. -/
def demoGame : SavedGame TTT.State where
  id := lit "abc"
  player1 := .model
  player2 := .random
  turns := [{ roll := none, action := [TTT.new, { TTT.new with player := 1, id := 7 }], player := .mcts },
    { roll := some (3, 5), action := [], player := .random }]
  winner := .mcts
  initial := TTT.new

theorem demoGame_fits : FitsGame FitsTTT demoGame := by
  refine ⟨?_, ⟨by decide, by decide, by decide⟩⟩
  intro t ht
  simp only [demoGame, List.mem_cons, List.not_mem_nil, or_false] at ht
  rcases ht with rfl | rfl
  · refine ⟨fun x hx => (by cases hx), fun x hx => ?_⟩
    simp only [List.mem_cons, List.not_mem_nil, or_false] at hx
    rcases hx with rfl | rfl <;> exact ⟨by decide, by decide, by decide⟩
  · refine ⟨fun x hx => ?_, fun x hx => (by cases hx)⟩
    obtain rfl := Option.some.inj hx
    exact ⟨by decide, by decide⟩

/-- Its file, and the configuration. -/
def demoFs : Fs := fun p =>
  if p = { abs := false, parts := [lit "config.toml"] } then some (.file (lit "..."))
  else if p = { abs := false, parts := [lit "abc.json"] } then some (.file (text ((gameSerde tttSerde).ser demoGame)))
  else none

/-- The hypotheses of C133 can be met. -/
example (u : Tape) : ∃ s, main demoEnv [lit "-gtic-tac-toe", lit "replay", lit "-g", lit "abc.json"] demoFs V.demoOrders 9 demoIds u =
      .ok (.done s demoFs, u) ∧ entries "Player: " s = [lit "Mcts", lit "Random"] ∧
      (entries "Roll: " s).map words = [[lit "None"], [lit "Some", lit "3", lit "5"]] := by
  have ht : demoFs.text (lit "abc.json") = some (text ((gameSerde tttSerde).ser demoGame)) := by
    have hp : path (lit "abc.json") = some { abs := false, parts := [lit "abc.json"] } := by decide +kernel
    unfold Fs.text Fs.entry
    rw [hp, Option.bind_some]
    rfl
  have hcfg : configText demoFs (lit "./config") = some (lit "...") := by
    have h1 : path (lit "./config") = some { abs := false, parts := [lit "config"] } := by decide +kernel
    have h2 : path (lit "./config" ++ lit ".toml") = some { abs := false, parts := [lit "config.toml"] } := by decide +kernel
    unfold configText Fs.text Fs.entry
    rw [h1, h2]
    rfl
  obtain ⟨s, h1, h2⟩ := C133_tictactoe (E := demoEnv) (a := { config := none, game := .ticTacToe, nCpus := none, command := .replay (lit "abc.json") })
    ((Cl.C92 [lit "-gtic-tac-toe", lit "replay", lit "-g", lit "abc.json"] _).1 (by decide +kernel)) rfl rfl (conf := demoConf) (n := 2)
    (fs := demoFs) ⟨by
      show (configText demoFs (lit "./config")).bind _ = _
      rw [hcfg]; rfl, rfl⟩ ht (loadText_save tttSerde_keeps demoGame_fits)
    (by decide) V.demoOrders 9 demoIds u
  exact ⟨s, h1, h2.agents, h2.rolls.trans (by decide)⟩

/-! ## C76 for the program -/

theorem loadModel_ok {E : Env} {w : Cli.Which} {fs : Fs} {m : Option Name} {x : Option E.W} (h : loadModel E w fs m = .ok x) :
    ∀ p, m = some p → ∃ txt y, fs.text p = some txt ∧ E.load w txt = some y ∧ x = some y := by
  rintro p rfl
  unfold loadModel at h
  simp only at h
  cases ht : fs.text p with
  | none => rw [ht] at h; cases h
  | some txt =>
    rw [ht, Option.bind_some] at h
    cases hl : E.load w txt with
    | none => rw [hl] at h; cases h
    | some y => rw [hl] at h; exact ⟨txt, y, rfl, hl, (Except.ok.inj h).symm⟩

/-- C76 for the program: if it returns from `play`, each model path on the command line names a file that holds a network for
the game. -/
theorem C76_files {E : Env} {argv : List Name} {a : Cli.Args} (ha : Cli.Means argv a) {one m1 two m2 out : Option Name}
    (hc : a.command = .play one m1 two m2 out) {o : Orders} {ids : Nat → Name} {fs fs' : Fs} {f : Nat} {t t' : Tape} {s : Name}
    (h : main E argv fs o f ids t = .ok (.done s fs', t')) :
    ∀ p, m1 = some p ∨ m2 = some p → ∃ txt x, fs.text p = some txt ∧ E.load a.game txt = some x := by
  obtain ⟨conf, n, s1, -, hrun, -⟩ := (main_ok ha).1 h
  have key : ∀ {G : Game} {K : Printer G}, playMain E a.game K one m1 two m2 out conf fs o f ids t = .ok ((s1, fs'), t') →
      ∀ p, m1 = some p ∨ m2 = some p → ∃ txt x, fs.text p = some txt ∧ E.load a.game txt = some x := by
    intro G K h p hp
    obtain ⟨a1, t1, h1, k1⟩ := M.bind_ok.1 h
    obtain ⟨a2, t2, h2, k2⟩ := M.bind_ok.1 k1
    obtain ⟨out', t3, h3, k3⟩ := M.bind_ok.1 k2
    obtain ⟨x4, t4, h4, k4⟩ := M.bind_ok.1 k3
    obtain ⟨w1, t5, h5, k5⟩ := M.bind_ok.1 k4
    obtain ⟨e5, -⟩ := M.lift_ok.1 h5
    obtain ⟨w2, t6, h6, k6⟩ := M.bind_ok.1 k5
    obtain ⟨e6, -⟩ := M.lift_ok.1 h6
    rcases hp with hp | hp
    · obtain ⟨txt, y, h7, h8, -⟩ := loadModel_ok e5 p hp
      exact ⟨txt, y, h7, h8⟩
    · obtain ⟨txt, y, h7, h8, -⟩ := loadModel_ok e6 p hp
      exact ⟨txt, y, h7, h8⟩
  unfold dispatch handle at hrun
  cases hg : a.game <;> rw [hg] at key <;> simp only [hg, hc] at hrun <;> exact key hrun

end DieE.Props.Re
