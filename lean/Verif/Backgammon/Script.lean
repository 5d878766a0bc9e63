import Verif.Backgammon.Facts2

/-!
# Games as played

`Played` are the positions that occur in games as the drivers of the repository play them: the mover plays a returned
move, passes only if there is none, and nobody plays on after a winner is reported.  `playScript` checks a written game,
given as a list of plays and of the dice thrown after them (proof device: it avoids generating all moves).
-/

namespace DieE.Spec
open BG

/-- Positions that occur in games. -/
inductive Played (pf : Profile) : State → Prop
  | start {dice} : DiceInRange dice → Played pf (rollWith new dice)
  | move {g ms m dice g'} : Played pf g → checkWinner g = none → getValidMoves pf g = .ok ms → m ∈ ms →
      DiceInRange dice → applyMove pf g m dice = .ok g' → Played pf g'
  | pass {g dice g'} : Played pf g → checkWinner g = none → getValidMoves pf g = .ok [] →
      DiceInRange dice → skipTurn pf g dice = .ok g' → Played pf g'

end DieE.Spec

namespace DieE.BG
open Spec

theorem played_reach {pf : Profile} {g : State} (h : Played pf g) : ReachStop pf g := by
  induction h with
  | start hd => exact .start hd
  | move _ hw hms hm hd ha ih => exact .step ih hw (.move hms hm hd ha)
  | pass _ hw _ hd ha ih => exact .step ih hw (.skip hd ha)

theorem played_ok {pf : Profile} {g : State} (h : Played pf g) : StateOK g := by
  induction h with
  | start hd => exact start_ok hd
  | move _ _ hms hm hd ha ih => exact applyMove_ok ih hms hm hd ha
  | pass _ _ _ hd ha ih => exact skipTurn_ok ih hd ha

/-- Is `q` one of the sequences generated for the dice? -/
def genPlayB (s : Side) : List Int → Board → Actions → Bool
  | dice, b, [] => dice.all fun d => (gen s b d).isEmpty
  | dice, b, a :: q => dice.any fun d => decide (a ∈ gen s b d) && genPlayB s (dice.erase d) (next s b a) q

theorem genPlayB_ok (s : Side) (q : Actions) (dice : List Int) (b : Board) (h : genPlayB s dice b q = true) :
    GenPlay s dice b q := by
  induction q generalizing dice b with
  | nil =>
    refine .stop fun d hd => ?_
    simpa using List.all_eq_true.1 h d hd
  | cons a q ih =>
    obtain ⟨d, hd, h⟩ := List.any_eq_true.1 h
    rw [Bool.and_eq_true, decide_eq_true_eq] at h
    exact .step hd h.1 (ih _ _ h.2)

/-- The state after playing the sequence `q` (passing if it is empty) and throwing `dice`. -/
def plyResult (g : State) (q : Actions) (dice : Int × Int) : State :=
  if q = [] then { g with second := false, player := -g.player, roll := dice }
  else if g.roll.1 = g.roll.2 ∧ g.second = false then { g with board := run (mover g) g.board q, second := true }
  else { g with board := run (mover g) g.board q, second := false, player := -g.player, roll := dice }

/-- Play a written game. -/
def playScript : State → List (Actions × (Int × Int)) → Option State
  | g, [] => some g
  | g, (q, dice) :: l =>
    if checkWinner g = none ∧ (1 ≤ dice.1 ∧ dice.1 ≤ 6) ∧ (1 ≤ dice.2 ∧ dice.2 ≤ 6) ∧
        genPlayB (mover g) (allMoves g.roll) g.board q = true then
      playScript (plyResult g q dice) l
    else none

theorem plyResult_played {pf : Profile} {g : State} (h : Played pf g) (hw : checkWinner g = none) {q : Actions}
    {dice : Int × Int} (hd : DiceInRange dice) (hq : GenPlay (mover g) (allMoves g.roll) g.board q) :
    Played pf (plyResult g q dice) := by
  have hg := played_ok h
  unfold plyResult
  by_cases he : q = []
  · subst he
    rw [if_pos rfl]
    refine .pass h hw ?_ hd (skipTurn_eq pf hg dice)
    rw [validMoves_eq pf hg]
    congr 1
    cases hq with
    | stop hq =>
      rw [List.eq_nil_iff_forall_not_mem]
      intro m hm
      obtain ⟨h1, h2⟩ := mem_pureMoves hm
      cases h2 with
      | stop _ => exact h1 rfl
      | step hd ha _ => rw [hq _ hd] at ha; simp at ha
  · rw [if_neg he]
    obtain ⟨m, hm, e⟩ := pureMoves_complete he hq
    have hms := validMoves_eq pf hg
    have ha := applyMove_eq pf hg hms hm dice
    rw [e] at ha
    exact .move h hw hms hm hd ha

/-- A written game that passes the check leads to a position that occurs in a game. -/
theorem playScript_played {pf : Profile} (l : List (Actions × (Int × Int))) {g g' : State} (h : Played pf g)
    (hl : playScript g l = some g') : Played pf g' := by
  induction l generalizing g with
  | nil => cases hl; exact h
  | cons x l ih =>
    obtain ⟨q, dice⟩ := x
    unfold playScript at hl
    split at hl
    · rename_i hc
      exact ih (plyResult_played h hc.1 ⟨hc.2.1, hc.2.2.1⟩ (genPlayB_ok _ _ _ _ hc.2.2.2)) hl
    · cases hl

end DieE.BG
