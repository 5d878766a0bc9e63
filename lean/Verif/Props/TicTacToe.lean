import Verif.TicTacToe.Model
import Verif.Backgammon.Basic
import Batteries.Data.List.Perm

/-! # C26 – C30: TicTacToe -/

namespace DieE.Props.T
open DieE DieE.TTT

/-! ## Specification -/

/-- The cell in row `r`, column `c`. -/
def rc (g : State) (r c : Nat) : Int := g.cell (3 * r + c)

/-- `p` owns a complete row, column or diagonal. -/
def HasLine (g : State) (p : Int) : Prop :=
  (∃ r < 3, ∀ c < 3, rc g r c = p) ∨ (∃ c < 3, ∀ r < 3, rc g r c = p) ∨
  (∀ i < 3, rc g i i = p) ∨ (∀ i < 3, rc g i (2 - i) = p)

/-- All cells are marked. -/
def Full (g : State) : Prop := ∀ i < 9, g.cell i ≠ 0

/-- A history: the starting player (after an optional `skip_turn`) and the cells played, oldest first. Moves are
members of `get_valid_moves`; play may or may not continue after a winner. -/
inductive Hist (pf : Profile) : Int → List Nat → State → Prop
  | start : Hist pf (-1) [] new
  | startSkip {g} : skipTurn pf new = .ok g → Hist pf 1 [] g
  | step {p l g a g'} : Hist pf p l g → a ∈ getValidMoves g → applyMove pf g a = .ok g' → Hist pf p (l ++ [a]) g'

/-- A history that stops at the first winner (or draw). -/
inductive HistStop (pf : Profile) : Int → List Nat → State → Prop
  | start : HistStop pf (-1) [] new
  | startSkip {g} : skipTurn pf new = .ok g → HistStop pf 1 [] g
  | step {p l g a g'} : HistStop pf p l g → checkWinner g = none → a ∈ getValidMoves g → applyMove pf g a = .ok g' →
      HistStop pf p (l ++ [a]) g'

theorem HistStop.hist {pf p l g} (h : HistStop pf p l g) : Hist pf p l g := by
  induction h with
  | start => exact .start
  | startSkip h => exact .startSkip h
  | step _ _ h2 h3 ih => exact .step ih h2 h3

/-! ## Helpers -/

theorem cell_eq (g : State) {i : Nat} (h : i < 9) : g.cell i = g.board[i] := by
  unfold State.cell
  simp [List.getD, h]

theorem cell_out (g : State) {i : Nat} (h : 9 ≤ i) : g.cell i = 0 := by
  unfold State.cell
  simp [List.getD, h]

theorem apply_ok (pf : Profile) {g : State} (hp : g.player = -1 ∨ g.player = 1) {a : Nat} (ha : a < 9) :
    applyMove pf g a = .ok { g with board := g.board.set a g.player, player := - g.player } := by
  unfold applyMove
  rw [dif_pos ha, i8_ok (by omega), bind_ok, show g.player * -1 = - g.player by omega]
  rfl

theorem skip_ok (pf : Profile) {g : State} (hp : g.player = -1 ∨ g.player = 1) :
    skipTurn pf g = .ok { g with player := - g.player } := by
  unfold skipTurn
  rw [i8_ok (by omega), bind_ok, show g.player * -1 = - g.player by omega]
  rfl

theorem cell_set (g : State) (p : Int) {a : Nat} (ha : a < 9) (i : Nat) :
    ({ g with board := g.board.set a g.player, player := p } : State).cell i = if i = a then g.player else g.cell i := by
  by_cases hi : i < 9
  · rw [cell_eq _ hi, cell_eq _ hi]
    show (g.board.set a g.player)[i] = _
    rw [Vector.getElem_set]
    by_cases h : i = a
    · rw [if_pos h.symm, if_pos h]
    · rw [if_neg (fun hc => h hc.symm), if_neg h]
  · rw [cell_out _ (by omega), cell_out _ (by omega), if_neg (by omega)]

theorem mem_moves (g : State) (a : Nat) : a ∈ getValidMoves g ↔ a < 9 ∧ g.cell a = 0 := by
  unfold getValidMoves
  simp [List.mem_filter]

/-! ## C26 -/

/-- C26: after the moves `l` started by `p` exactly the cells of `l` are marked, each with the mark of the player who
played it (players alternate), no cell was played twice, and the player to move is determined by the number of moves. -/
theorem C26_consistent (pf : Profile) {p l g} (h : Hist pf p l g) :
    (p = -1 ∨ p = 1) ∧ g.player = (if l.length % 2 = 0 then p else -p) ∧ l.Nodup ∧ (∀ a ∈ l, a < 9) ∧
    (∀ k (hk : k < l.length), g.cell l[k] = if k % 2 = 0 then p else -p) ∧ (∀ i, i ∉ l → g.cell i = 0) := by
  have base : ∀ i, new.cell i = 0 := by
    intro i
    by_cases hi : i < 9
    · rw [cell_eq _ hi]; simp [new]
    · exact cell_out _ (by omega)
  induction h with
  | start => exact ⟨.inl rfl, rfl, List.nodup_nil, by simp, by simp, fun i _ => base i⟩
  | startSkip h =>
    rw [skip_ok pf (.inl rfl)] at h
    cases h
    exact ⟨.inr rfl, rfl, List.nodup_nil, by simp, by simp, fun i _ => base i⟩
  | @step p l g a g' _ ha hg ih =>
    obtain ⟨hp, h1, h2, h3, h4, h5⟩ := ih
    obtain ⟨ha9, ha0⟩ := (mem_moves g a).1 ha
    have hpl : g.player = -1 ∨ g.player = 1 := by rw [h1]; split <;> omega
    have hal : a ∉ l := by
      intro hm
      obtain ⟨k, hk, e⟩ := List.mem_iff_getElem.1 hm
      have := h4 k hk
      rw [e, ha0] at this
      split at this <;> omega
    rw [apply_ok pf hpl ha9] at hg
    cases hg
    refine ⟨hp, ?_, ?_, ?_, ?_, ?_⟩
    · show - g.player = _
      rw [h1, List.length_append]
      simp only [List.length_cons, List.length_nil]
      split <;> split <;> omega
    · rw [List.nodup_append]
      refine ⟨h2, by simp, ?_⟩
      intro x hx y hy
      simp only [List.mem_singleton] at hy
      subst hy
      rintro rfl
      exact hal hx
    · intro x hx
      rcases List.mem_append.1 hx with hx | hx
      · exact h3 x hx
      · simp only [List.mem_singleton] at hx; omega
    · intro k hk
      rw [cell_set g _ ha9]
      rw [List.length_append] at hk
      simp only [List.length_cons, List.length_nil] at hk
      by_cases hlt : k < l.length
      · rw [List.getElem_append_left hlt, if_neg, h4 k hlt]
        rintro hc
        exact hal (hc ▸ List.getElem_mem hlt)
      · have : k = l.length := by omega
        subst this
        rw [List.getElem_append_right (by omega)]
        simp only [Nat.sub_self, List.getElem_cons_zero, if_true]
        exact h1
    · intro i hi
      rw [cell_set g _ ha9]
      simp only [List.mem_append, List.mem_singleton, not_or] at hi
      rw [if_neg hi.2, h5 i hi.1]

/-- C26: cells only hold -1, 0, 1. -/
theorem C26_cells (pf : Profile) {p l g} (h : Hist pf p l g) (i : Nat) : g.cell i = -1 ∨ g.cell i = 0 ∨ g.cell i = 1 := by
  obtain ⟨hp, -, -, -, h4, h5⟩ := C26_consistent pf h
  by_cases hi : i ∈ l
  · obtain ⟨k, hk, e⟩ := List.mem_iff_getElem.1 hi
    have := h4 k hk
    rw [e] at this
    split at this <;> omega
  · rw [h5 i hi]; omega

/-! ## C27 -/

theorem hasLine_iff (g : State) (p : Int) :
    HasLine g p ↔ ∃ t ∈ combos, g.cell t.1 = p ∧ g.cell t.2.1 = p ∧ g.cell t.2.2 = p := by
  have all3 : ∀ (f : Nat → Prop), (∀ c < 3, f c) ↔ f 0 ∧ f 1 ∧ f 2 := by
    intro f
    constructor
    · intro h; exact ⟨h 0 (by omega), h 1 (by omega), h 2 (by omega)⟩
    · rintro ⟨h0, h1, h2⟩ c hc
      have : c = 0 ∨ c = 1 ∨ c = 2 := by omega
      rcases this with rfl | rfl | rfl <;> assumption
  have ex3 : ∀ (f : Nat → Prop), (∃ c < 3, f c) ↔ f 0 ∨ f 1 ∨ f 2 := by
    intro f
    constructor
    · rintro ⟨c, hc, h⟩
      have : c = 0 ∨ c = 1 ∨ c = 2 := by omega
      rcases this with rfl | rfl | rfl
      · exact .inl h
      · exact .inr (.inl h)
      · exact .inr (.inr h)
    · rintro (h | h | h)
      · exact ⟨0, by omega, h⟩
      · exact ⟨1, by omega, h⟩
      · exact ⟨2, by omega, h⟩
  unfold HasLine rc
  simp only [all3, ex3]
  simp [combos, or_assoc]

theorem found_iff (g : State) (p : Int) (hp : p ≠ 0) :
    (∃ t ∈ combos, comboWinner g t = some p) ↔ HasLine g p := by
  rw [hasLine_iff]
  have : ∀ t, comboWinner g t = some p ↔ g.cell t.1 = p ∧ g.cell t.2.1 = p ∧ g.cell t.2.2 = p := by
    intro t
    unfold comboWinner
    simp only
    split
    · next h => simp only [Option.some.injEq]; omega
    · next h => simp only [reduceCtorEq, false_iff]; omega
  simp only [this]

theorem combo_ne_zero {g : State} {t} {q : Int} (h : comboWinner g t = some q) : q ≠ 0 := by
  unfold comboWinner at h
  simp only at h
  split at h
  · next hc => cases h; exact hc.1
  · cases h

theorem full_iff (g : State) : g.board.toList.all (fun v => v != 0) = true ↔ Full g := by
  unfold Full
  rw [List.all_eq_true]
  constructor
  · intro h i hi
    rw [cell_eq g hi]
    have := h g.board[i] (by simp)
    simpa using this
  · intro h v hv
    obtain ⟨i, hi, e⟩ := List.mem_iff_getElem.1 hv
    have h9 : i < 9 := by simpa using hi
    have := h i h9
    rw [cell_eq g h9] at this
    have e' : g.board[i] = v := by simpa using e
    rw [e'] at this
    simpa using this

/-- C27: on every board over {-1,0,1} on which not both players have a line, `check_winner` is `p = ±1` iff `p` has a
line, `0` iff the board is full without a line, and `None` iff there is neither a line nor a full board. -/
theorem C27_winner (g : State) (hc : ∀ i, g.cell i = -1 ∨ g.cell i = 0 ∨ g.cell i = 1)
    (hb : ¬ (HasLine g (-1) ∧ HasLine g 1)) :
    (∀ p : Int, p = -1 ∨ p = 1 → (checkWinner g = some p ↔ HasLine g p)) ∧
    (checkWinner g = some 0 ↔ Full g ∧ ¬ HasLine g (-1) ∧ ¬ HasLine g 1) ∧
    (checkWinner g = none ↔ ¬ Full g ∧ ¬ HasLine g (-1) ∧ ¬ HasLine g 1) := by
  unfold checkWinner
  cases hf : combos.findSome? (comboWinner g) with
  | some q =>
    obtain ⟨t, ht, hq⟩ := List.exists_of_findSome?_eq_some hf
    have hq0 := combo_ne_zero hq
    have hl := (found_iff g q hq0).1 ⟨t, ht, hq⟩
    have hq1 : q = -1 ∨ q = 1 := by
      obtain ⟨t', _, h1, -⟩ := (hasLine_iff g q).1 hl
      have := hc t'.1
      omega
    refine ⟨?_, ?_, ?_⟩
    · intro p hp
      simp only [Option.some.injEq]
      constructor
      · rintro rfl; exact hl
      · intro hl'
        rcases hp with rfl | rfl <;> rcases hq1 with rfl | rfl
        · rfl
        · exact absurd ⟨hl', hl⟩ hb
        · exact absurd ⟨hl, hl'⟩ hb
        · rfl
    · simp only [Option.some.injEq]
      constructor
      · intro h; exact absurd h hq0
      · rintro ⟨-, h1, h2⟩
        rcases hq1 with rfl | rfl
        · exact absurd hl h1
        · exact absurd hl h2
    · simp only [reduceCtorEq, false_iff]
      rintro ⟨-, h1, h2⟩
      rcases hq1 with rfl | rfl
      · exact absurd hl h1
      · exact absurd hl h2
  | none =>
    have hno : ∀ p : Int, p ≠ 0 → ¬ HasLine g p := by
      intro p hp hl
      obtain ⟨t, ht, h⟩ := (found_iff g p hp).2 hl
      rw [List.findSome?_eq_none_iff] at hf
      rw [hf t ht] at h
      cases h
    have h1 := hno (-1) (by omega)
    have h2 := hno 1 (by omega)
    have hfull := full_iff g
    refine ⟨?_, ?_, ?_⟩
    · intro p hp
      have hnp := hno p (by omega)
      simp only [hnp, iff_false]
      split
      · simp only [Option.some.injEq]; omega
      · simp
    · by_cases hF : Full g
      · simp [hfull.2 hF, hF, h1, h2]
      · have : ¬ (g.board.toList.all (fun v => v != 0) = true) := fun h => hF (hfull.1 h)
        simp [this, hF]
    · by_cases hF : Full g
      · simp [hfull.2 hF, hF, h1, h2]
      · have : ¬ (g.board.toList.all (fun v => v != 0) = true) := fun h => hF (hfull.1 h)
        simp only [if_neg this]
        simp [hF, h1, h2]

/-- A mark of `q` placed on an empty cell creates no line of `p ≠ q`. -/
theorem line_mono {g : State} {p : Int} {a : Nat} (ha : a < 9) (p' : Int) (hne : g.player ≠ p)
    (h : HasLine ({ g with board := g.board.set a g.player, player := p' } : State) p) : HasLine g p := by
  rw [hasLine_iff] at h ⊢
  obtain ⟨t, ht, h1, h2, h3⟩ := h
  rw [cell_set g p' ha] at h1 h2 h3
  have key : ∀ i, (if i = a then g.player else g.cell i) = p → g.cell i = p := by
    intro i h
    split at h
    · exact absurd h hne
    · exact h
  exact ⟨t, ht, key _ h1, key _ h2, key _ h3⟩

/-- C26: as long as play stops at the first winner, at most one player has a line. -/
theorem C26_one_winner (pf : Profile) {p l g} (h : HistStop pf p l g) : ¬ (HasLine g (-1) ∧ HasLine g 1) := by
  have empty : ∀ (g : State) (q : Int), (∀ i, g.cell i = 0) → q ≠ 0 → ¬ HasLine g q := by
    intro g q h hq hl
    obtain ⟨t, _, h1, -⟩ := (hasLine_iff g q).1 hl
    rw [h] at h1
    exact hq h1.symm
  induction h with
  | start =>
    have := (C26_consistent pf .start).2.2.2.2.2
    exact fun hc => empty _ 1 (fun i => this i (by simp)) (by omega) hc.2
  | startSkip h =>
    have := (C26_consistent pf (.startSkip h)).2.2.2.2.2
    exact fun hc => empty _ 1 (fun i => this i (by simp)) (by omega) hc.2
  | @step p l g a g' hr hn ha hg ih =>
    have hcells := C26_cells pf hr.hist
    obtain ⟨hp, h1, -⟩ := C26_consistent pf hr.hist
    have hpl : g.player = -1 ∨ g.player = 1 := by rw [h1]; split <;> omega
    have ha9 := ((mem_moves g a).1 ha).1
    have hno := (C27_winner g hcells ih).2.2.1 hn
    rw [apply_ok pf hpl ha9] at hg
    cases hg
    rintro ⟨hl, hl'⟩
    rcases hpl with e | e
    · exact hno.2.2 (line_mono ha9 _ (by omega) hl')
    · exact hno.2.1 (line_mono ha9 _ (by omega) hl)

/-! ## C28 -/

/-- C28: there is a legal move iff the board is not full. -/
theorem C28_moves_iff (g : State) : getValidMoves g = [] ↔ Full g := by
  rw [List.eq_nil_iff_forall_not_mem]
  unfold Full
  constructor
  · intro h i hi hc
    exact h i ((mem_moves g i).2 ⟨hi, hc⟩)
  · intro h a ha
    obtain ⟨h1, h2⟩ := (mem_moves g a).1 ha
    exact h a h1 h2

/-- C28: a position without winner has a legal move. -/
theorem C28_no_winner_move (g : State) (h : checkWinner g = none) : getValidMoves g ≠ [] := by
  intro hc
  have := (full_iff g).2 ((C28_moves_iff g).1 hc)
  unfold checkWinner at h
  split at h
  · cases h
  · rw [if_pos this] at h; cases h

theorem nodup_length {n : Nat} {l : List Nat} (h : l.Nodup) (hl : ∀ a ∈ l, a < n) : l.length ≤ n := by
  have : l ⊆ List.range n := fun a ha => List.mem_range.2 (hl a ha)
  have := (List.subperm_of_subset h this).length_le
  simpa using this

/-- C28: a game of legal moves has at most nine moves; after the ninth there is no legal move and a result. -/
theorem C28_ends (pf : Profile) {p l g} (h : Hist pf p l g) :
    l.length ≤ 9 ∧ (l.length = 9 ↔ Full g) ∧ (l.length = 9 → ∃ r, checkWinner g = some r) ∧
    (getValidMoves g).length = 9 - l.length := by
  obtain ⟨hp, h1, h2, h3, h4, h5⟩ := C26_consistent pf h
  have hle := nodup_length h2 h3
  have hmem : ∀ a, a ∈ getValidMoves g ↔ a < 9 ∧ a ∉ l := by
    intro a
    rw [mem_moves]
    constructor
    · rintro ⟨h6, h7⟩
      refine ⟨h6, fun hm => ?_⟩
      obtain ⟨k, hk, e⟩ := List.mem_iff_getElem.1 hm
      have := h4 k hk
      rw [e, h7] at this
      split at this <;> omega
    · rintro ⟨h6, h7⟩; exact ⟨h6, h5 a h7⟩
  have hnd : (getValidMoves g).Nodup := by
    unfold getValidMoves
    exact List.Pairwise.filter _ List.nodup_range
  have hperm : (getValidMoves g ++ l).Perm (List.range 9) := by
    rw [List.perm_ext_iff_of_nodup ?_ List.nodup_range]
    · intro a
      rw [List.mem_append, hmem, List.mem_range]
      constructor
      · rintro (h | h); exact h.1; exact h3 a h
      · intro h
        by_cases hm : a ∈ l
        · exact .inr hm
        · exact .inl ⟨h, hm⟩
    · rw [List.nodup_append]
      refine ⟨hnd, h2, ?_⟩
      rintro x hx y hy rfl
      exact ((hmem x).1 hx).2 hy
  have hlen := hperm.length_eq
  rw [List.length_append, List.length_range] at hlen
  have hfull : l.length = 9 ↔ Full g := by
    rw [← C28_moves_iff, ← List.length_eq_zero_iff]
    omega
  refine ⟨hle, hfull, ?_, by omega⟩
  intro h9
  have hF := (full_iff g).2 (hfull.1 h9)
  unfold checkWinner
  split
  · exact ⟨_, rfl⟩
  · rw [if_pos hF]; exact ⟨_, rfl⟩

/-- C28: with every legal move the game can go on and nothing panics, in both profiles. -/
theorem C28_progress (pf pf' : Profile) {p l g} (h : Hist pf p l g) {a : Nat} (ha : a ∈ getValidMoves g) :
    ∃ g', applyMove pf' g a = .ok g' := by
  obtain ⟨hp, h1, -⟩ := C26_consistent pf h
  have hpl : g.player = -1 ∨ g.player = 1 := by rw [h1]; split <;> omega
  exact ⟨_, apply_ok pf' hpl ((mem_moves g a).1 ha).1⟩

/-! ## C29 -/

/-- C29: codes of legal moves are below 9; `decode` inverts `encode` on every `u8` move and fails exactly above 255. -/
theorem C29_codes (g : State) :
    (∀ a ∈ getValidMoves g, encode a < 9) ∧ (∀ a ≤ 255, decode (encode a) = .ok a) ∧
    (∀ n, n ≤ 255 → encode n = n ∧ decode n = .ok n) ∧ (∀ n, (∃ e, decode n = .error e) ↔ 255 < n) := by
  refine ⟨fun a ha => ((mem_moves g a).1 ha).1, ?_, ?_, ?_⟩
  · intro a ha; unfold decode encode; rw [if_pos ha]
  · intro a ha; unfold decode encode; rw [if_pos ha]; exact ⟨rfl, rfl⟩
  · intro n
    unfold decode
    split
    · simp; omega
    · simp; omega

/-! ## C30 -/

theorem tensor_content (g : State) : ∃ t, asTensor g = .ok t ∧ t.shape = [1, 3, 3, 3] ∧
    ∀ c i j, c < 3 → i < 3 → j < 3 → t.at' [0, c, i, j] = if rc g i j = (c : Int) - 1 then 1 else 0 := by
  unfold asTensor Tensor.view
  rw [if_pos (by simp [Tensor.numel, Tensor.fromSlice]), bind_ok]
  unfold Tensor.stack
  simp only
  rw [if_pos (by simp), bind_ok]
  refine ⟨_, rfl, rfl, ?_⟩
  intro c i j hc hi hj
  have hc' : c = 0 ∨ c = 1 ∨ c = 2 := by omega
  have e : (i * 3 + (j * 1 + 0)) / 1 = 3 * i + j := by omega
  rcases hc' with rfl | rfl | rfl
  · show (if g.board.toList.getD ((i * 3 + (j * 1 + 0)) / 1) default = -1 then (1 : Int) else 0) = _
    rw [e]; rfl
  · show (if g.board.toList.getD ((i * 3 + (j * 1 + 0)) / 1) default = 0 then (1 : Int) else 0) = _
    rw [e]; rfl
  · show (if g.board.toList.getD ((i * 3 + (j * 1 + 0)) / 1) default = 1 then (1 : Int) else 0) = _
    rw [e]; rfl

/-- Full statement of C30: the network input determines board and player to move. -/
def C30_statement : Prop :=
  ∀ g g' t t', asTensor g = .ok t → asTensor g' = .ok t' → Tensor.Same t t' →
    (∀ i, g.cell i = -1 ∨ g.cell i = 0 ∨ g.cell i = 1) → (∀ i, g'.cell i = -1 ∨ g'.cell i = 0 ∨ g'.cell i = 1) →
    g.board = g'.board ∧ g.player = g'.player

/-- C30 is false: the player to move is not part of the input (the new game before and after `skip_turn`, which is how
half of the games of a match are started). -/
theorem C30_refuted : ¬ C30_statement := by
  intro h
  obtain ⟨t, ht, -⟩ := tensor_content new
  have ht' : asTensor { new with player := 1 } = .ok t := by
    rw [← ht]; rfl
  have hz : ∀ i, new.cell i = -1 ∨ new.cell i = 0 ∨ new.cell i = 1 := C26_cells .debug .start
  have := h new { new with player := 1 } t t ht ht' ⟨rfl, fun _ _ => rfl⟩ hz hz
  revert this
  decide

/-- C30 (partial): the input determines the board. Missing: the player to move, see `C30_refuted`. -/
theorem C30_board_partial {g g' : State} {t t' : Tensor Int} (h : asTensor g = .ok t) (h' : asTensor g' = .ok t')
    (hs : Tensor.Same t t') (hc : ∀ i, g.cell i = -1 ∨ g.cell i = 0 ∨ g.cell i = 1) : g.board = g'.board := by
  obtain ⟨u, e, sh, ht⟩ := tensor_content g
  obtain ⟨u', e', sh', ht'⟩ := tensor_content g'
  rw [h] at e; cases e
  rw [h'] at e'; cases e'
  have key : ∀ (c i j : Nat), c < 3 → i < 3 → j < 3 →
      ((rc g i j = (c : Int) - 1) ↔ (rc g' i j = (c : Int) - 1)) := by
    intro c i j hc hi hj
    have e1 := ht c i j hc hi hj
    have e2 := ht' c i j hc hi hj
    have e3 := hs.2 [0, c, i, j] (by rw [sh]; exact ⟨by omega, hc, hi, hj, trivial⟩)
    rw [e1, e2] at e3
    split at e3 <;> split at e3 <;> simp_all
  apply Vector.ext
  intro i hi
  have e1 := cell_eq g hi
  have e2 := cell_eq g' hi
  rw [← e1, ← e2]
  have h3 := hc i
  have hi' : 3 * (i / 3) + i % 3 = i := by omega
  have k0 := key 0 (i / 3) (i % 3) (by omega) (by omega) (by omega)
  have k1 := key 1 (i / 3) (i % 3) (by omega) (by omega) (by omega)
  have k2 := key 2 (i / 3) (i % 3) (by omega) (by omega) (by omega)
  unfold rc at k0 k1 k2
  rw [hi'] at k0 k1 k2
  omega

/-! Concrete cases. -/

/-- X (player -1) wins with the first column. -/
def xWins : State := { player := 1, board := #v[-1, 1, 0, -1, 1, 0, -1, 0, 0], id := 0 }

example : ∃ l, HistStop .debug (-1) l xWins ∧ l = [0, 1, 3, 4, 6] ∧ checkWinner xWins = some (-1) := by
  refine ⟨_, ?_, rfl, by decide +kernel⟩
  have h1 := HistStop.step (pf := .debug) (a := 0) .start (by decide +kernel) (by decide +kernel) rfl
  have h2 := HistStop.step (a := 1) h1 (by decide +kernel) (by decide +kernel) rfl
  have h3 := HistStop.step (a := 3) h2 (by decide +kernel) (by decide +kernel) rfl
  have h4 := HistStop.step (a := 4) h3 (by decide +kernel) (by decide +kernel) rfl
  exact HistStop.step (a := 6) h4 (by decide +kernel) (by decide +kernel) rfl

example : checkWinner { player := 1, board := #v[-1, 1, -1, -1, 1, 1, 1, -1, -1], id := 0 } = some 0 := by decide +kernel

end DieE.Props.T
