import Verif.Text.Pretty
import Verif.Text.PrettySpec
import Verif.Text.JsonFacts
import Verif.Backgammon.Facts
import Verif.Props.TicTacToe

/-! # C89: printed positions -/

namespace DieE.Props.Pr
open DieE DieE.Text DieE.BG
open DieE.Train (Name digits)

/-! ## Splitting and joining -/

theorem split_none {c : Char} {l : Name} (h : c ∉ l) : split c l = [l] := by
  induction l with
  | nil => rfl
  | cons x l ih =>
    have h1 : x ≠ c := fun e => h (by rw [e]; exact List.mem_cons_self ..)
    have h2 := ih fun e => h (List.mem_cons_of_mem _ e)
    unfold split
    rw [if_neg h1, h2]

theorem split_sep {c : Char} {l r : Name} (h : c ∉ l) : split c (l ++ [c] ++ r) = l :: split c r := by
  induction l with
  | nil =>
    show split c (c :: r) = _
    rw [split, if_pos rfl]
  | cons x l ih =>
    have h1 : x ≠ c := fun e => h (by rw [e]; exact List.mem_cons_self ..)
    have h2 := ih fun e => h (List.mem_cons_of_mem _ e)
    show split c (x :: (l ++ [c] ++ r)) = _
    rw [split, if_neg h1, h2]

theorem split_join {c : Char} {l : List Name} (hl : l ≠ []) (h : ∀ x ∈ l, c ∉ x) : split c (join [c] l) = l := by
  induction l with
  | nil => exact absurd rfl hl
  | cons x l ih =>
    cases l with
    | nil => exact split_none (h x (List.mem_cons_self ..))
    | cons y l =>
      rw [join, split_sep (h x (List.mem_cons_self ..)), ih (by simp) fun z hz => h z (List.mem_cons_of_mem _ hz)]

theorem join_append {sep : Name} {a b : List Name} (ha : a ≠ []) (hb : b ≠ []) :
    join sep (a ++ b) = join sep a ++ sep ++ join sep b := by
  induction a with
  | nil => exact absurd rfl ha
  | cons x a ih =>
    cases a with
    | nil =>
      cases b with
      | nil => exact absurd rfl hb
      | cons y b => rfl
    | cons y a =>
      show join sep (x :: y :: (a ++ b)) = _
      rw [join, join, ← List.cons_append, ih (by simp)]
      simp only [List.append_assoc]

theorem not_mem_join {c : Char} {sep : Name} (hs : c ∉ sep) {l : List Name} (h : ∀ x ∈ l, c ∉ x) : c ∉ join sep l := by
  induction l with
  | nil => exact List.not_mem_nil
  | cons x l ih =>
    cases l with
    | nil => exact h x (List.mem_cons_self ..)
    | cons y l =>
      rw [join]
      intro e
      rcases List.mem_append.1 e with e | e
      · rcases List.mem_append.1 e with e | e
        · exact h x (List.mem_cons_self ..) e
        · exact hs e
      · exact ih (fun z hz => h z (List.mem_cons_of_mem _ hz)) e

theorem writeInt_chars {n : Int} {c : Char} (h : c ∈ writeInt n) : c = '-' ∨ c.isDigit = true := by
  unfold writeInt at h
  split at h
  · rcases List.mem_cons.1 h with h | h
    · exact .inl h
    · exact .inr (digits_isDigit h)
  · exact .inr (digits_isDigit h)

theorem writeInt_plain (n : Int) : '\n' ∉ writeInt n ∧ '\t' ∉ writeInt n ∧ ',' ∉ writeInt n ∧ '|' ∉ writeInt n ∧ ')' ∉ writeInt n := by
  refine ⟨?_, ?_, ?_, ?_, ?_⟩ <;> (intro h; rcases writeInt_chars h with h | h <;> revert h <;> decide)

theorem digits_inj {m n : Nat} (h : digits m = digits n) : m = n := by
  have := congrArg (fun l => Nat.ofDigitChars 10 l 0) h
  simpa [digits, Nat.ofDigitChars_toDigits] using this

theorem writeInt_inj {m n : Int} (h : writeInt m = writeInt n) : m = n := by
  have hd : ∀ k : Nat, ∀ l, digits k ≠ '-' :: l := by
    intro k l e
    have : '-' ∈ digits k := by rw [e]; exact List.mem_cons_self ..
    exact absurd (digits_isDigit this) (by decide)
  unfold writeInt at h
  split at h <;> split at h
  · have := digits_inj (List.cons.inj h).2; omega
  · exact absurd h.symm (hd _ _)
  · exact absurd h (hd _ _)
  · have := digits_inj h; omega

/-! ## The table -/

/-- The cell, without panics. -/
def cell (i n : Int) : Name :=
  let a := if n < 0 then -n else n
  if i = 6 ∧ i ≤ a then '+' :: writeInt (a - 5) else if i ≤ a then (if n < 0 then ['x'] else ['o']) else [' ']

theorem cell_ok (pf : Profile) (i : Int) {n : Int} (h1 : -127 ≤ n) (h2 : n ≤ 127) : prettyCell pf i n = .ok (cell i n) := by
  unfold prettyCell cell
  have : i8 pf (if n < 0 then -n else n) = .ok (if n < 0 then -n else n) := by
    unfold i8
    rw [if_pos]
    split <;> omega
  rw [this]
  simp only [bind, Except.bind]
  generalize (if n < 0 then -n else n) = a
  by_cases h3 : i = 6 ∧ i ≤ a
  · rw [if_pos h3, if_pos h3]; rfl
  · rw [if_neg h3, if_neg h3]
    by_cases h4 : i ≤ a
    · rw [if_pos h4, if_pos h4]; rfl
    · rw [if_neg h4, if_neg h4]; rfl

theorem cell_plain (i n : Int) : '\n' ∉ cell i n ∧ '\t' ∉ cell i n := by
  unfold cell
  simp only
  generalize (if n < 0 then -n else n) = a
  by_cases h3 : i = 6 ∧ i ≤ a
  · rw [if_pos h3]
    obtain ⟨h1, h2, -⟩ := writeInt_plain (a - 5)
    refine ⟨fun h => ?_, fun h => ?_⟩
    · rcases List.mem_cons.1 h with h | h
      · revert h; decide
      · exact h1 h
    · rcases List.mem_cons.1 h with h | h
      · revert h; decide
      · exact h2 h
  · rw [if_neg h3]
    by_cases h4 : i ≤ a
    · rw [if_pos h4]
      split <;> decide
    · rw [if_neg h4]
      decide

theorem readCells_cell {n : Int} (h1 : -127 ≤ n) (h2 : n ≤ 127) : readCells ([1, 2, 3, 4, 5, 6].map fun i => cell i n) = n := by
  have key : ∀ k : Fin 255, readCells ([1, 2, 3, 4, 5, 6].map fun i => cell i ((k : Int) - 127)) = (k : Int) - 127 := by
    decide +kernel
  have := key ⟨(n + 127).toNat, by omega⟩
  have e : (((n + 127).toNat : Nat) : Int) - 127 = n := by omega
  simpa only [e] using this

/-- A board with entries that are printed as they are. -/
def Printable (b : Board) : Prop := ∀ p : Nat, p < 24 → -127 ≤ b.pt p ∧ b.pt p ≤ 127

theorem mapM_ok {α β : Type} {f : α → Res β} {g : α → β} {l : List α} (h : ∀ x ∈ l, f x = .ok (g x)) :
    l.mapM f = .ok (l.map g) := by
  induction l with
  | nil => rfl
  | cons x l ih =>
    rw [List.mapM_cons, h x (List.mem_cons_self ..), ih fun y hy => h y (List.mem_cons_of_mem _ hy)]
    rfl

/-- A row with its separators. -/
def framed (row : List Name) : List Name := [['|']] ++ row.take 6 ++ [['|']] ++ row.drop 6 ++ [['|']]

theorem frame_ok {row : List Name} (h : row.length = 12) : prettyFrame row = .ok (framed row) := by
  unfold prettyFrame insertAt
  rw [h, if_pos (by omega)]
  simp only [bind, Except.bind]
  rw [if_pos (Nat.zero_le _)]
  simp only [pure, Except.pure, framed, List.take_zero, List.drop_zero, List.nil_append, List.append_assoc]

/-- The rows of the table. -/
def rows (b : Board) : List (List Name) :=
  [topPoints.map digits] ++ ([1, 2, 3, 4, 5, 6].map fun i => topPoints.map fun p : Nat => cell i (b.pt p)) ++
    [List.replicate 12 [' ']] ++ ([6, 5, 4, 3, 2, 1].map fun i => botPoints.map fun p : Nat => cell i (b.pt p)) ++
    [botPoints.map digits]

theorem rows_ok (pf : Profile) {b : Board} (hb : Printable b) : prettyRows pf b = .ok ((rows b).map framed) := by
  have hrow : ∀ i, ∀ ps : List Nat, (∀ p ∈ ps, p < 24) → prettyRow pf b i ps = .ok (ps.map fun p : Nat => cell i (b.pt p)) := by
    intro i ps hps
    exact mapM_ok fun p hp => cell_ok pf i (hb p (hps p hp)).1 (hb p (hps p hp)).2
  have hbot : ∀ p ∈ botPoints, p < 24 := by decide
  have htop : ∀ p ∈ topPoints, p < 24 := by decide
  unfold prettyRows
  rw [mapM_ok fun i _ => hrow i _ hbot, mapM_ok fun i _ => hrow i _ htop]
  simp only [bind, Except.bind]
  rw [mapM_ok (g := framed)]
  · simp only [pure, Except.pure]
    congr 1
  · intro row hrow
    apply frame_ok
    simp only [List.mem_append, List.mem_singleton, List.mem_map] at hrow
    rcases hrow with ((rfl | ((⟨i, -, rfl⟩ | rfl) | ⟨i, -, rfl⟩)) | rfl)
    · rfl
    · rw [List.length_map]; rfl
    · rw [List.length_replicate]; rfl
    · rw [List.length_map]; rfl
    · rfl

/-- The lines of the text. -/
def table (g : State) : List (List Name) :=
  [[lit "Current turn: " ++ (if g.player = -1 then lit "Player 1" else lit "Player 2"),
      lit "Roll: (" ++ writeInt g.roll.1 ++ lit ", " ++ writeInt g.roll.2 ++ lit ")"],
    [lit "Player 1:"], [[], lit "Broken Pieces: " ++ writeInt g.board.hit.1], [[], lit "Pieces Collected:" ++ writeInt g.board.col.1],
    [lit "Player 2:"], [[], lit "Broken Pieces: " ++ writeInt g.board.hit.2], [[], lit "Pieces Collected:" ++ writeInt g.board.col.2],
    [List.replicate 110 '=']] ++ (rows g.board).map framed ++ [[List.replicate 110 '=']]

theorem text_ok (pf : Profile) {g : State} (hb : Printable g.board) :
    toPrettyStr pf g = .ok (join ['\n'] ((table g).map (join ['\t']))) := by
  have e1 : lit ":\n\tBroken Pieces: " = lit ":" ++ ['\n', '\t'] ++ lit "Broken Pieces: " := by decide
  have e2 : lit "\n\tPieces Collected:" = ['\n', '\t'] ++ lit "Pieces Collected:" := by decide
  have e3 : lit "\tRoll: " ++ lit "(" = ['\t'] ++ lit "Roll: (" := by decide
  have e4 : lit "Player 1:" = lit "Player 1" ++ lit ":" := by decide
  have e5 : lit "Player 2:" = lit "Player 2" ++ lit ":" := by decide
  have e6 : lit "\n" = ['\n'] := by decide
  unfold toPrettyStr
  rw [rows_ok pf hb]
  simp only [bind, Except.bind, pure, Except.pure]
  congr 1
  unfold table
  rw [List.map_append, List.map_append, join_append (by simp) (by simp), join_append (by simp) (by simp [rows])]
  generalize List.replicate 110 '=' = line
  generalize join ['\n'] (((rows g.board).map framed).map (join ['\t'])) = board
  rw [e1, e2, e4, e5, e6]
  generalize lit "Player 1" = a1, lit "Player 2" = a2, lit ":" = a3, lit "Broken Pieces: " = a4, lit "Pieces Collected:" = a5,
    lit "Current turn: " = a6, lit ", " = a8, lit ")" = a9
  generalize lit "\tRoll: " = b1, lit "(" = b2, lit "Roll: (" = b3 at *
  generalize writeInt g.roll.1 = x1, writeInt g.roll.2 = x2, writeInt g.board.hit.1 = x3, writeInt g.board.hit.2 = x4,
    writeInt g.board.col.1 = x5, writeInt g.board.col.2 = x6
  generalize (if g.player = -1 then a1 else a2) = x7
  have e7 : ∀ r, b1 ++ (b2 ++ r) = '\t' :: (b3 ++ r) := by
    intro r
    rw [← List.append_assoc, e3, List.append_assoc]
    rfl
  simp only [List.map_cons, List.map_nil, join, List.append_assoc, List.nil_append, List.cons_append]
  rw [e7]

theorem plain_rows {b : Board} {row : List Name} (h : row ∈ (rows b).map framed) : ∀ x ∈ row, '\n' ∉ x ∧ '\t' ∉ x := by
  obtain ⟨r, hr, rfl⟩ := List.mem_map.1 h
  have hdig : ∀ k, '\n' ∉ digits k ∧ '\t' ∉ digits k :=
    fun k => ⟨fun h => absurd (digits_isDigit h) (by decide), fun h => absurd (digits_isDigit h) (by decide)⟩
  have key : ∀ x ∈ r, '\n' ∉ x ∧ '\t' ∉ x := by
    simp only [rows, List.mem_append, List.mem_singleton, List.mem_map] at hr
    intro x hx
    rcases hr with (((rfl | ⟨i, -, rfl⟩) | rfl) | ⟨i, -, rfl⟩) | rfl
    · obtain ⟨p, -, rfl⟩ := List.mem_map.1 hx
      exact hdig p
    · obtain ⟨p, -, rfl⟩ := List.mem_map.1 hx
      exact cell_plain _ _
    · rw [(List.mem_replicate.1 hx).2]
      decide
    · obtain ⟨p, -, rfl⟩ := List.mem_map.1 hx
      exact cell_plain _ _
    · obtain ⟨p, -, rfl⟩ := List.mem_map.1 hx
      exact hdig p
  intro x hx
  simp only [framed, List.mem_append, List.mem_singleton] at hx
  rcases hx with (((rfl | hx) | rfl) | hx) | rfl
  · decide
  · exact key x (List.mem_of_mem_take hx)
  · decide
  · exact key x (List.mem_of_mem_drop hx)
  · decide

theorem plain_table {g : State} : ∀ row ∈ table g, row ≠ [] ∧ ∀ x ∈ row, '\n' ∉ x ∧ '\t' ∉ x := by
  have hw : ∀ (a : Name) n, ('\n' ∉ a ∧ '\t' ∉ a) → '\n' ∉ a ++ writeInt n ∧ '\t' ∉ a ++ writeInt n := by
    intro a n ⟨h1, h2⟩
    obtain ⟨h3, h4, -⟩ := writeInt_plain n
    refine ⟨fun h => ?_, fun h => ?_⟩ <;> rcases List.mem_append.1 h with h | h
    exacts [h1 h, h3 h, h2 h, h4 h]
  have ha : ∀ a b : Name, ('\n' ∉ a ∧ '\t' ∉ a) → ('\n' ∉ b ∧ '\t' ∉ b) → '\n' ∉ a ++ b ∧ '\t' ∉ a ++ b := by
    intro a b ⟨h1, h2⟩ ⟨h3, h4⟩
    refine ⟨fun h => ?_, fun h => ?_⟩ <;> rcases List.mem_append.1 h with h | h
    exacts [h1 h, h3 h, h2 h, h4 h]
  have hline : '\n' ∉ List.replicate 110 '=' ∧ '\t' ∉ List.replicate 110 '=' :=
    ⟨fun h => absurd (List.mem_replicate.1 h).2 (by decide), fun h => absurd (List.mem_replicate.1 h).2 (by decide)⟩
  intro row hrow
  simp only [table, List.mem_append] at hrow
  rcases hrow with (hrow | hrow) | hrow
  · generalize hL : List.replicate 110 '=' = line at hrow hline
    simp only [List.mem_cons, List.not_mem_nil, or_false] at hrow
    rcases hrow with rfl | rfl | rfl | rfl | rfl | rfl | rfl | rfl
    · refine ⟨by simp, fun x hx => ?_⟩
      simp only [List.mem_cons, List.not_mem_nil, or_false] at hx
      rcases hx with rfl | rfl
      · split <;> exact ha _ _ (by decide) (by decide)
      · exact ha _ _ (hw _ _ (ha _ _ (hw _ _ (by decide)) (by decide))) (by decide)
    all_goals
      refine ⟨by simp, fun x hx => ?_⟩
      simp only [List.mem_cons, List.not_mem_nil, or_false] at hx
    · rw [hx]; decide
    · rcases hx with rfl | rfl
      exacts [by decide, hw _ _ (by decide)]
    · rcases hx with rfl | rfl
      exacts [by decide, hw _ _ (by decide)]
    · rw [hx]; decide
    · rcases hx with rfl | rfl
      exacts [by decide, hw _ _ (by decide)]
    · rcases hx with rfl | rfl
      exacts [by decide, hw _ _ (by decide)]
    · rw [hx]; exact hline
  · refine ⟨?_, plain_rows hrow⟩
    obtain ⟨r, -, rfl⟩ := List.mem_map.1 hrow
    simp [framed]
  · rw [List.mem_singleton.1 hrow]
    refine ⟨by simp, fun x hx => ?_⟩
    rw [List.mem_singleton.1 hx]
    exact hline

/-- Reading the text gives the table. -/
theorem grid_ok {g : State} : (split '\n' (join ['\n'] ((table g).map (join ['\t'])))).map (split '\t') = table g := by
  rw [split_join (by simp [table])]
  · rw [List.map_map]
    conv => rhs; rw [← List.map_id (table g)]
    refine List.map_congr_left fun row hrow => ?_
    obtain ⟨h1, h2⟩ := plain_table row hrow
    exact split_join h1 fun x hx => (h2 x hx).2
  · intro x hx
    obtain ⟨row, hrow, rfl⟩ := List.mem_map.1 hx
    exact not_mem_join (by decide) fun y hy => ((plain_table row hrow).2 y hy).1

theorem cellAt_ok {g : State} (i j : Nat) : cellAt (join ['\n'] ((table g).map (join ['\t']))) i j = ((table g).getD i []).getD j [] := by
  unfold cellAt
  rw [grid_ok]

/-- C89: what the text of a Backgammon position shows. -/
structure Shows (txt : Name) (g : State) : Prop where
  /-- each point has its number -/
  label : ∀ p : Nat, p < 24 → cellAt txt (labelLine p) (column p) = digits p
  /-- and its checkers -/
  points : ∀ p : Nat, p < 24 → readCells (pointCells txt p) = g.board.pt p
  /-- the player to move -/
  turn : cellAt txt 0 0 = lit "Current turn: " ++ lit (if g.player = -1 then "Player 1" else "Player 2")
  /-- the dice -/
  roll : cellAt txt 0 1 = lit "Roll: (" ++ writeInt g.roll.1 ++ lit ", " ++ writeInt g.roll.2 ++ lit ")"
  /-- bar and collected checkers of player -1 -/
  first : cellAt txt 1 0 = lit "Player 1:" ∧ cellAt txt 2 1 = lit "Broken Pieces: " ++ writeInt g.board.hit.1 ∧
    cellAt txt 3 1 = lit "Pieces Collected:" ++ writeInt g.board.col.1
  /-- bar and collected checkers of player 1 -/
  second : cellAt txt 4 0 = lit "Player 2:" ∧ cellAt txt 5 1 = lit "Broken Pieces: " ++ writeInt g.board.hit.2 ∧
    cellAt txt 6 1 = lit "Pieces Collected:" ++ writeInt g.board.col.2

theorem C89_shows (pf : Profile) {g : State} (hb : Printable g.board) : ∃ txt, toPrettyStr pf g = .ok txt ∧ Shows txt g := by
  refine ⟨_, text_ok pf hb, ?_, ?_, ?_, ?_, ?_, ?_⟩
  · intro p hp
    rw [cellAt_ok]
    interval_cases p <;> rfl
  · intro p hp
    obtain ⟨h1, h2⟩ := hb p hp
    have : pointCells (join ['\n'] ((table g).map (join ['\t']))) p = [1, 2, 3, 4, 5, 6].map fun i => cell i (g.board.pt p) := by
      unfold pointCells
      simp only [cellAt_ok, List.map_cons, List.map_nil]
      clear h1 h2
      interval_cases p <;> rfl
    rw [this]
    exact readCells_cell h1 h2
  · rw [cellAt_ok]
    show lit "Current turn: " ++ (if g.player = -1 then lit "Player 1" else lit "Player 2") = _
    split <;> rfl
  · rw [cellAt_ok]; rfl
  · rw [cellAt_ok, cellAt_ok, cellAt_ok]; exact ⟨rfl, rfl, rfl⟩
  · rw [cellAt_ok, cellAt_ok, cellAt_ok]; exact ⟨rfl, rfl, rfl⟩


/-- The positions of the game can be printed. -/
theorem printable {g : State} (hg : Spec.StateOK g) : Printable g.board := by
  intro p hp
  obtain ⟨h1, h2, -⟩ := hg.board.range p
  omega

/-- C89: the text of a position of the game shows it. -/
theorem C89_backgammon (pf : Profile) {g : State} (hg : Spec.StateOK g) : ∃ txt, toPrettyStr pf g = .ok txt ∧ Shows txt g :=
  C89_shows pf (printable hg)

theorem pair_inj {a b a' b' : Int} (h : writeInt a ++ lit ", " ++ writeInt b = writeInt a' ++ lit ", " ++ writeInt b') : a = a' ∧ b = b' := by
  have e : lit ", " = [','] ++ [' '] := by decide
  rw [e] at h
  have h1 : ∀ a b, split ',' (writeInt a ++ ([','] ++ [' ']) ++ writeInt b) = [writeInt a, ' ' :: writeInt b] := by
    intro a b
    rw [← List.append_assoc, List.append_assoc (writeInt a ++ [',']), split_sep (writeInt_plain a).2.2.1, split_none]
    · rfl
    · intro h
      rcases List.mem_append.1 h with h | h
      · revert h; decide
      · exact (writeInt_plain b).2.2.1 h
  have h2 := congrArg (split ',') h
  rw [h1, h1] at h2
  obtain ⟨h3, h4⟩ := List.cons.inj h2
  exact ⟨writeInt_inj h3, writeInt_inj (List.cons.inj (List.cons.inj h4).1).2⟩

/-- C89: a text that shows two positions shows the same board, dice and player. -/
theorem C89_injective {txt : Name} {g g' : State} (h : Shows txt g) (h' : Shows txt g') :
    g.board = g'.board ∧ g.roll = g'.roll ∧ (g.player = -1 ↔ g'.player = -1) := by
  refine ⟨?_, ?_, ?_⟩
  · refine board_ext (fun i h0 h1 => ?_) (Prod.ext ?_ ?_) (Prod.ext ?_ ?_)
    · have e1 := h.points i.toNat (by omega)
      have e2 := h'.points i.toNat (by omega)
      rw [Int.toNat_of_nonneg h0] at e1 e2
      exact e1.symm.trans e2
    · exact writeInt_inj (List.append_cancel_left (h.first.2.1.symm.trans h'.first.2.1))
    · exact writeInt_inj (List.append_cancel_left (h.second.2.1.symm.trans h'.second.2.1))
    · exact writeInt_inj (List.append_cancel_left (h.first.2.2.symm.trans h'.first.2.2))
    · exact writeInt_inj (List.append_cancel_left (h.second.2.2.symm.trans h'.second.2.2))
  · have e := h.roll.symm.trans h'.roll
    have e := List.append_cancel_right e
    rw [List.append_assoc, List.append_assoc, List.append_assoc, List.append_assoc] at e
    have e := List.append_cancel_left e
    rw [← List.append_assoc, ← List.append_assoc] at e
    obtain ⟨h1, h2⟩ := pair_inj e
    exact Prod.ext h1 h2
  · have e := List.append_cancel_left (h.turn.symm.trans h'.turn)
    by_cases h1 : g.player = -1 <;> by_cases h2 : g'.player = -1
    · exact ⟨fun _ => h2, fun _ => h1⟩
    · rw [if_pos h1, if_neg h2] at e
      exact absurd e (by decide)
    · rw [if_neg h1, if_pos h2] at e
      exact absurd e (by decide)
    · exact ⟨fun h => absurd h h1, fun h => absurd h h2⟩

/-- An entry of -128, which no position of the game has, makes a debug build panic. -/
example : prettyCell .debug 1 (-128) = .error .overflow ∧ prettyCell .release 1 (-128) = .ok [' '] := by decide

/-- The opening position, read from its text. -/
example : ((toPrettyStr .debug (rollWith new (3, 1))).toOption.map fun txt =>
    ((List.range 24).map fun p => readCells (pointCells txt p), cellAt txt 0 1)) =
    some ([2, 0, 0, 0, 0, -5, 0, -3, 0, 0, 0, 5, -5, 0, 0, 0, 3, 0, 5, 0, 0, 0, 0, -2], lit "Roll: (3, 1)") := by decide +kernel

/-! ## C90: TicTacToe -/

/-- C90: line `r` of the text, split at the bars, shows row `r` of the board. -/
theorem C90_shows (g : TTT.State) {r c : Nat} (hr : r < 3) (hc : c < 3) :
    (((split '\n' (TTT.toPrettyStr g)).map (split '|')).getD r []).getD c [] = writeInt (g.cell (3 * r + c)) := by
  have hbar : ∀ a b c, split '|' (writeInt a ++ lit "|" ++ writeInt b ++ lit "|" ++ writeInt c) =
      [writeInt a, writeInt b, writeInt c] := by
    intro a b c
    show split '|' (writeInt a ++ ['|'] ++ writeInt b ++ ['|'] ++ writeInt c) = _
    rw [List.append_assoc, List.append_assoc, split_sep (writeInt_plain a).2.2.2.1, ← List.append_assoc,
      split_sep (writeInt_plain b).2.2.2.1, split_none (writeInt_plain c).2.2.2.1]
  have hpl : ∀ a b c : Int, '\n' ∉ writeInt a ++ lit "|" ++ writeInt b ++ lit "|" ++ writeInt c := by
    intro a b c h
    simp only [List.mem_append] at h
    rcases h with (((h | h) | h) | h) | h
    · exact (writeInt_plain a).1 h
    · revert h; decide
    · exact (writeInt_plain b).1 h
    · revert h; decide
    · exact (writeInt_plain c).1 h
  have hsplit : split '\n' (TTT.toPrettyStr g) =
      [writeInt (g.cell 0) ++ lit "|" ++ writeInt (g.cell 1) ++ lit "|" ++ writeInt (g.cell 2),
       writeInt (g.cell 3) ++ lit "|" ++ writeInt (g.cell 4) ++ lit "|" ++ writeInt (g.cell 5),
       writeInt (g.cell 6) ++ lit "|" ++ writeInt (g.cell 7) ++ lit "|" ++ writeInt (g.cell 8)] := by
    have e : TTT.toPrettyStr g = join ['\n']
      [writeInt (g.cell 0) ++ lit "|" ++ writeInt (g.cell 1) ++ lit "|" ++ writeInt (g.cell 2),
       writeInt (g.cell 3) ++ lit "|" ++ writeInt (g.cell 4) ++ lit "|" ++ writeInt (g.cell 5),
       writeInt (g.cell 6) ++ lit "|" ++ writeInt (g.cell 7) ++ lit "|" ++ writeInt (g.cell 8)] := by
      have e6 : lit "\n" = ['\n'] := by decide
      unfold TTT.toPrettyStr
      rw [e6]
      generalize lit "|" = b
      simp only [join, List.append_assoc]
    rw [e, split_join (by simp)]
    intro x hx
    simp only [List.mem_cons, List.not_mem_nil, or_false] at hx
    rcases hx with rfl | rfl | rfl <;> exact hpl _ _ _
  rw [hsplit]
  simp only [List.map_cons, List.map_nil, hbar]
  interval_cases r <;> interval_cases c <;> rfl

/-- C90: positions with the same text have the same board. -/
theorem C90_injective {g g' : TTT.State} (h : TTT.toPrettyStr g = TTT.toPrettyStr g') : g.board = g'.board := by
  have key : ∀ r c, r < 3 → c < 3 → g.cell (3 * r + c) = g'.cell (3 * r + c) := by
    intro r c hr hc
    have h1 := C90_shows g hr hc
    rw [h, C90_shows g' hr hc] at h1
    exact (writeInt_inj h1).symm
  ext i hi
  have := key (i / 3) (i % 3) (by omega) (by omega)
  rw [show 3 * (i / 3) + i % 3 = i by omega, T.cell_eq g hi, T.cell_eq g' hi] at this
  exact this

/-- The text does not say who is to move. -/
example : TTT.toPrettyStr TTT.new = TTT.toPrettyStr { TTT.new with player := 1 } := rfl

end DieE.Props.Pr
