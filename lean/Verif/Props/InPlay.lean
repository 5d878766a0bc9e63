import Verif.Backgammon.Script
import Verif.Props.Symmetry

/-!
# The rule violations of C08, C12, C13 and C25 occur in games

The positions refuting C08, C12, C13 and C25 are valid positions.  Here are games, played with returned moves only, in
which such positions occur.
-/

namespace DieE.Props
open DieE DieE.BG DieE.Spec

/-- A game of 5 half-turns. -/
def shortGame : List (Actions × (Int × Int)) :=
  [([(7, 3), (7, 6)], (5, 1)), ([(0, 1), (1, 6)], (4, 1)), ([(-1, 23), (5, 1)], (6, 6)),
   ([(11, 17), (11, 17)], (6, 6)), ([(16, 22), (0, 6)], (6, 3))]

/-- The position after it. -/
def shortPlayed : State where
  board := { pts := #v[0, -1, 0, -1, 0, -4, 2, -1, 0, 0, 0, 3, -5, 0, 0, 0, 2, 2, 5, 0, 0, 0, 1, -3],
             hit := (0, 0), col := (0, 0) }
  roll := (6, 3)
  player := -1
  second := false
  id := 0

theorem shortPlayed_played (pf : Profile) : Played pf shortPlayed :=
  playScript_played shortGame (.start (dice := (4, 1)) ⟨by decide, by decide⟩) (by decide +kernel)

/-- A game of 34 half-turns. -/
def rearGame : List (Actions × (Int × Int)) :=
  [([(12, 6), (7, 1)], (6, 6)), ([(12, 6), (7, 1)], (3, 2)), ([(11, 14), (11, 13)], (4, 5)),
   ([(6, 1), (6, 2)], (3, 4)), ([(13, 16), (11, 15)], (1, 6)), ([(5, 4), (7, 1)], (4, 2)),
   ([(11, 13), (16, 20)], (6, 5)), ([(12, 6), (6, 1)], (5, 3)), ([(18, 21), (16, 21)], (5, 5)),
   ([(12, 7), (7, 2)], (5, 5)), ([(12, 7), (7, 2)], (4, 3)), ([(16, 20), (18, 21)], (5, 6)),
   ([(23, 17), (17, 12)], (2, 2)), ([(13, 15), (16, 18)], (2, 2)), ([(21, 23), (15, 17)], (3, 5)),
   ([(-1, 19), (4, 1)], (5, 3)), ([(18, 23), (17, 20)], (5, 3)), ([(19, 16), (12, 7)], (1, 4)),
   ([(14, 18), (21, 22)], (5, 2)), ([(7, 5), (16, 11)], (1, 5)), ([(-1, 4), (22, 23)], (1, 1)),
   ([(5, 4), (11, 10)], (1, 1)), ([(5, 4), (5, 4)], (1, 2)), ([(-1, 0), (18, 20)], (6, 6)),
   ([(10, 4), (5, -1)], (6, 6)), ([(5, -1), (4, -1)], (3, 2)), ([(15, 17), (18, 21)], (3, 1)),
   ([(2, 1), (4, 1)], (3, 4)), ([(0, 3), (17, 21)], (4, 3)), ([(2, -1)], (4, 2)),
   ([(20, 22), (18, 22)], (1, 6)), ([(4, 3), (4, -1)], (1, 5)), ([(-1, 4), (20, 21)], (3, 3)),
   ([(2, -1), (1, -1)], (3, 3))]

/-- The position after it. -/
def rearPlayed : State where
  board := { pts := #v[2, -7, 0, -1, 1, 0, 0, 0, 0, 0, 0, 0, 0, 0, 0, 0, 0, 0, 1, 0, 2, 4, 2, 3],
             hit := (0, 0), col := (7, 0) }
  roll := (3, 3)
  player := -1
  second := true
  id := 0

theorem rearPlayed_played (pf : Profile) : Played pf rearPlayed :=
  playScript_played rearGame (.start (dice := (6, 6)) ⟨by decide, by decide⟩) (by decide +kernel)

/-- A game of 25 half-turns. -/
def asymGame : List (Actions × (Int × Int)) :=
  [([(23, 20), (5, 4)], (6, 6)), ([(0, 6), (0, 6)], (6, 6)), ([(11, 17), (17, 23)], (4, 5)),
   ([(-1, 19), (5, 1)], (6, 4)), ([(11, 17), (6, 10)], (6, 3)), ([(20, 14), (5, 2)], (5, 6)),
   ([(18, 23), (11, 17)], (2, 4)), ([(7, 5), (7, 3)], (6, 6)), ([(11, 17), (16, 22)], (6, 6)),
   ([(10, 16), (17, 23)], (6, 4)), ([(14, 8), (12, 8)], (5, 6)), ([(11, 17), (17, 22)], (1, 2)),
   ([(8, 7), (4, 2)], (1, 6)), ([(18, 19), (17, 23)], (4, 1)), ([(-1, 20), (12, 11)], (3, 6)),
   ([(17, 23), (16, 19)], (4, 5)), ([(8, 4), (5, 0)], (5, 6)), ([(16, 22), (6, 11)], (3, 6)),
   ([(-1, 21), (12, 6)], (4, 6)), ([(18, 22), (16, 22)], (3, 2)), ([(7, 4), (4, 2)], (6, 2)),
   ([(11, 17), (17, 19)], (2, 4)), ([(6, 2), (3, 1)], (5, 2)), ([(19, -1), (19, 21)], (4, 1)),
   ([(-1, 20), (2, 1)], (6, 3))]

/-- The position after it. -/
def asymPlayed : State where
  board := { pts := #v[-1, -3, -3, 0, -1, -2, 0, -1, 0, 0, 0, 0, -2, 0, 0, 0, 0, 0, 2, 1, -2, 1, 5, 5],
             hit := (0, 0), col := (0, 1) }
  roll := (6, 3)
  player := 1
  second := false
  id := 0

theorem asymPlayed_played (pf : Profile) : Played pf asymPlayed :=
  playScript_played asymGame (.start (dice := (3, 1)) ⟨by decide, by decide⟩) (by decide +kernel)

theorem shortPlayed_moves (pf : Profile) : getValidMoves pf shortPlayed = .ok [[(3, 0), (7, 1)], [(5, 2), (7, 1)],
    [(7, 4)], [(12, 9), (7, 1)], [(12, 9), (9, 3)], [(23, 20), (7, 1)], [(23, 20), (20, 14)]] := by
  cases pf <;> decide +kernel

theorem rearPlayed_moves (pf : Profile) : getValidMoves pf rearPlayed = .ok [[(1, -1), (1, -1)]] := by
  cases pf <;> decide +kernel

theorem asymPlayed_moves (pf : Profile) : getValidMoves pf asymPlayed =
    .ok [[(18, 21), (18, -1)], [(19, 22), (18, -1)], [(21, -1), (18, -1)]] := by
  cases pf <;> decide +kernel

theorem asymPlayed_mirror_moves (pf : Profile) : getValidMoves pf (mirror asymPlayed) =
    .ok [[(2, -1), (5, -1)], [(4, 1), (2, -1)], [(4, 1), (5, -1)], [(5, 2), (2, -1)], [(5, 2), (5, -1)]] := by
  cases pf <;> decide +kernel

/-- C08 is violated in games: the only move offered in `rearPlayed` bears off from point 1 with a 3 although a checker
stands on point 3. -/
theorem C08_in_play (pf : Profile) : ∃ g, Played pf g ∧ ∃ ms, getValidMoves pf g = .ok ms ∧ ms ≠ [] ∧ ∀ m ∈ ms,
    ¬ Uses (fun P d a => DieRule (mover g) d a ∧ RearRule (mover g) P d a) (mover g) [g.roll.1, g.roll.2]
      (view g.board) m := by
  refine ⟨rearPlayed, rearPlayed_played pf, _, rearPlayed_moves pf, by simp, ?_⟩
  intro m hm hu
  simp only [List.mem_singleton] at hm
  subst hm
  cases hu with
  | @cons _ _ d _ _ h1 h2 _ =>
    have hd : d = 3 := by simpa [rearPlayed] using h1
    subst hd
    have := h2.2 rfl (by decide) 3 ⟨by decide, by decide⟩ (by decide)
    revert this
    decide

/-- C12 is violated in games, after five half-turns: the one-die move 7→4 is offered besides two-dice moves. -/
theorem C12_in_play (pf : Profile) : ∃ g, Played pf g ∧ ∃ ms, getValidMoves pf g = .ok ms ∧
    (∃ m ∈ ms, m.length = 2) ∧ ∃ m ∈ ms, m.length = 1 :=
  ⟨shortPlayed, shortPlayed_played pf, _, shortPlayed_moves pf, ⟨[(3, 0), (7, 1)], by simp, rfl⟩, [(7, 4)], by simp, rfl⟩

/-- C13 is violated in games: no legal checker move exists in `rearPlayed`, but a move is offered. -/
theorem C13_in_play (pf : Profile) : ∃ g, Played pf g ∧ ∃ ms, getValidMoves pf g = .ok ms ∧ ms ≠ [] ∧
    ∀ d ∈ [g.roll.1, g.roll.2], ∀ a, ¬ LegalStep (mover g) (view g.board) d a := by
  refine ⟨rearPlayed, rearPlayed_played pf, _, rearPlayed_moves pf, by simp, ?_⟩
  intro d hd a hl
  have hd3 : d = 3 := by simpa [rearPlayed] using hd
  subst hd3
  have hg := gen_complete (played_ok (rearPlayed_played pf)).board ⟨by decide, by decide⟩ hl
  have : gen (mover rearPlayed) rearPlayed.board 3 = [(1, -1)] := by decide +kernel
  rw [this] at hg
  simp only [List.mem_singleton] at hg
  subst hg
  have := hl.rear rfl (by decide) 3 ⟨by decide, by decide⟩ (by decide)
  revert this
  decide

/-- C25 is violated in games: the mirror image of `asymPlayed` offers a board whose mirror image `asymPlayed` does not
offer. -/
theorem C25_in_play (pf : Profile) : ∃ g, Played pf g ∧ ∃ b, Offers pf (mirror g) (mirrorBoard b) ∧ ¬ Offers pf g b := by
  refine ⟨asymPlayed, asymPlayed_played pf,
    { pts := #v[-1, -3, -3, 0, -1, -2, 0, -1, 0, 0, 0, 0, -2, 0, 0, 0, 0, 0, 2, 0, -2, 0, 6, 5], hit := (0, 0), col := (0, 2) },
    ⟨_, asymPlayed_mirror_moves pf, [(4, 1), (2, -1)], by simp, by cases pf <;> decide +kernel⟩, ?_⟩
  rintro ⟨ms, hms, m, hm, hb⟩
  rw [asymPlayed_moves pf, Except.ok.injEq] at hms
  subst hms
  simp only [List.mem_cons, List.not_mem_nil, or_false] at hm
  rcases hm with rfl | rfl | rfl <;> revert hb <;> cases pf <;> decide +kernel

end DieE.Props
