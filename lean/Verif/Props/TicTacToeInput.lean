import Verif.Props.TicTacToe
import Mathlib.Tactic.IntervalCases

/-!
# C30 in play: when the network input of TicTacToe determines the player to move
-/

namespace DieE.Props.T
open DieE DieE.TTT

/-- The sum of the cells. -/
def sum9 (f : Nat → Int) : Int := f 0 + f 1 + f 2 + f 3 + f 4 + f 5 + f 6 + f 7 + f 8

theorem sum9_set (f : Nat → Int) {a : Nat} (ha : a < 9) (v : Int) : sum9 (fun i => if i = a then v else f i) = sum9 f - f a + v := by
  unfold sum9
  interval_cases a <;> simp <;> omega

/-- The marks on the board: their number is that of the moves, and their sum is 0 or that of the player who started. -/
theorem marks (pf : Profile) {p l g} (h : Hist pf p l g) :
    sum9 g.cell = (if l.length % 2 = 0 then 0 else p) ∧ sum9 (fun i => if g.cell i = 0 then 0 else 1) = l.length := by
  have base : ∀ i, new.cell i = 0 := by
    intro i
    by_cases hi : i < 9
    · rw [cell_eq _ hi]; simp [new]
    · exact cell_out _ (by omega)
  induction h with
  | start => constructor <;> simp [sum9, base]
  | startSkip h =>
    rw [skip_ok pf (.inl rfl)] at h
    cases h
    have base' : ∀ i, ({ new with player := - new.player } : State).cell i = 0 := base
    constructor <;> simp [sum9, base']
  | @step p l g a g' hh ha hg ih =>
    obtain ⟨ih1, ih2⟩ := ih
    obtain ⟨hp, h1, -⟩ := C26_consistent pf hh
    obtain ⟨ha9, ha0⟩ := (mem_moves g a).1 ha
    have hpl : g.player = -1 ∨ g.player = 1 := by rw [h1]; split <;> omega
    rw [apply_ok pf hpl ha9] at hg
    cases hg
    have e : ({ g with board := g.board.set a g.player, player := -g.player } : State).cell = fun i => if i = a then g.player else g.cell i :=
      funext fun i => cell_set g _ ha9 i
    rw [e, List.length_append, List.length_singleton]
    constructor
    · rw [sum9_set _ ha9, ih1, ha0, h1]
      split <;> split <;> omega
    · have : (fun i => if (if i = a then g.player else g.cell i) = 0 then (0 : Int) else 1) =
          fun i => if i = a then 1 else (fun i => if g.cell i = 0 then (0 : Int) else 1) i := by
        funext i
        by_cases hi : i = a
        · simp only [if_pos hi]
          rw [if_neg (by omega)]
        · simp only [if_neg hi]
      simp only at this
      simp only [this]
      rw [sum9_set (fun i => if g.cell i = 0 then (0 : Int) else 1) ha9, ih2]
      simp [ha0]

/-- C30 in play: two positions of games with the same network input have the same board and the same number of moves; the
player to move is the same exactly if the same player started the games; the two starters can only differ after an even
number of moves. -/
theorem C30_in_play (pf : Profile) {p l g p' l' g'} (h : Hist pf p l g) (h' : Hist pf p' l' g') {t t' : Tensor Int}
    (ht : asTensor g = .ok t) (ht' : asTensor g' = .ok t') (hs : Tensor.Same t t') :
    g.board = g'.board ∧ l.length = l'.length ∧ (g.player = g'.player ↔ p = p') ∧ (p ≠ p' → l.length % 2 = 0) := by
  have hb := C30_board_partial ht ht' hs (C26_cells pf h)
  have hc : g.cell = g'.cell := by
    funext i
    unfold State.cell
    rw [hb]
  obtain ⟨m1, m2⟩ := marks pf h
  obtain ⟨m1', m2'⟩ := marks pf h'
  rw [← hc] at m1' m2'
  have hl : l.length = l'.length := by omega
  obtain ⟨hp, h1, -⟩ := C26_consistent pf h
  obtain ⟨hp', h1', -⟩ := C26_consistent pf h'
  rw [m1, ← hl] at m1'
  refine ⟨hb, hl, ?_, ?_⟩
  · rw [h1, h1', ← hl]
    split <;> omega
  · intro hne
    by_contra ho
    rw [if_neg ho, if_neg ho] at m1'
    exact hne m1'

/-- C30 for the positions of self-play, where player -1 starts every game: the network input determines the position. -/
theorem C30_self_play (pf : Profile) {l g l' g'} (h : Hist pf (-1) l g) (h' : Hist pf (-1) l' g') {t t' : Tensor Int}
    (ht : asTensor g = .ok t) (ht' : asTensor g' = .ok t') (hs : Tensor.Same t t') :
    g.board = g'.board ∧ g.player = g'.player := by
  obtain ⟨h1, -, h2, -⟩ := C30_in_play pf h h' ht ht' hs
  exact ⟨h1, h2.2 rfl⟩

/-- The two players to move after two moves are not told apart, if different players started. -/
example : ∃ l g l' g', Hist .debug (-1) l g ∧ Hist .debug 1 l' g' ∧ l.length = 2 ∧ g.board = g'.board ∧ g.player = -1 ∧ g'.player = 1 ∧
    asTensor g = asTensor g' := by
  have h1 := Hist.step (pf := .debug) (a := 0) .start (by decide +kernel) rfl
  have h2 := Hist.step (a := 1) h1 (by decide +kernel) rfl
  have k0 := Hist.startSkip (pf := .debug) (g := { new with player := 1 }) rfl
  have k1 := Hist.step (a := 1) k0 (by decide +kernel) rfl
  have k2 := Hist.step (a := 0) k1 (by decide +kernel) rfl
  exact ⟨_, _, _, _, h2, k2, rfl, by decide +kernel, rfl, rfl, rfl⟩

end DieE.Props.T
